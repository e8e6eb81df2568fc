# Formal model of geometry-central (Lean 4)

## 1. Approach

The source in `/repo` is read as text; it is neither built nor run. Every Lean
definition in `lean/Verif` that models code cites file and lines. Theorems are
about the model only; the tie to the code is the citation.

General modelling conventions

* `size_t` indices are `Nat`. `INVALID_IND` (= `SIZE_MAX`) is the constant
  `INV = 2^64 - 1`. Overflow of 64-bit counters is not modelled (except where a
  property is about it); theorems that need it assume capacities below `INV`.
* A `std::vector<size_t>` of the mesh is a total function `Nat → Nat`; its
  length is the corresponding capacity counter. That accesses are in bounds is a
  consequence of the validity invariant (all references live, live ⇒ below fill
  ≤ capacity), and where the code can leave the bounds this is stated as a
  separate theorem about the capacity counter.
* Outcomes are `Res α = Except Err α` with `Err = throw | ub | oom | hang`:
  a thrown exception (including failed `GC_SAFETY_ASSERT`), an out-of-bounds
  access or read of an invalid element, the exhaustion of the index space
  (`Mesh.nearLimit m k`: fewer than `k` further doublings fit below `INVALID_IND`),
  and a `do … while` walk that never returns. Walks carry a fuel equal to the
  number of allocated halfedges; theorems prove that `hang` and `ub` do not occur.
* A typical mutation theorem reads
  `(op m … = error oom ∧ m.nearLimit k) ∨ ∃ m', op m … = ok … ∧ m'.Valid ∧ …`.
* Real-number geometry is over `ℝ` or an arbitrary (ordered) field: floating
  point rounding, overflow and NaN are not modelled. `atan2` is `Complex.arg`,
  `acos` is `Real.arccos`. Lean's `x / 0 = 0` never helps: either the hypothesis
  excludes the zero or the model branches on it.

### What is modelled

| module | code |
|--------|------|
| `Mesh`, `MeshBasic`, `MeshValid`, `MeshCheck` | arrays and counters of `ManifoldSurfaceMesh` with implicit twins, allocation, deletion, `Valid` invariant, executable check of `Valid` for witnesses |
| `MeshFlip`, `MeshInsert`, `MeshConnect`, `MeshSplit`, `MeshInsertFace`, `MeshRemoveEdge`, `MeshRemoveVertex`, `MeshSeparateEdge`, `MeshRemoveFace`, `MeshContract`, `MeshCollapse`, `MeshSwitch`, `MeshFaceStore` | flip, insertVertexAlongEdge, connectVertices, splitEdgeTriangular, triangulate, insertVertex, removeEdge, removeVertex, separateEdge, removeFaceAlongBoundary, collapseEdgeTriangular, switchHalfedgeSides, face/boundary-loop storage |
| `Nav` | element ranges and navigation iterators |
| `Compress`, `Containers` | compress and its callbacks, `MeshData` buffers |
| `DisjointSets` | `DisjointSets`, `MarkedDisjointSets` |
| `Vec`, `Curve` | `Vector2/3`, `Quaternion`, Hermite and Bézier curves |
| `SurfacePoint`, `BarycentricVector`, `Props.Bary` | `SurfacePoint`, `BarycentricVector`, barycentric coordinate helpers |
| `Mollify`, `Fmm` | mollification and triangle layout, fast-marching updates and seeds |
| `Loop`, `LinAlg` | bounds-checked vectors and loops; sparse stacking, block decomposition, complex-to-real lifting |
| `Soup` | `SimplePolygonMesh` clean-up, triangulation, union |
| `SoupOrient` | `SimplePolygonMesh::consistentlyOrientFaces`; `std::sort` and the outcome of the ray casting are parameters |
| `Marching` | `getCurveComponents`, `marchingTriangles` (orientation test abstract) |
| `PointCloud` | `PointCloud` and its containers |
| `Obj` | OBJ reader and writer, character by character |
| `Mutation` | `MutationManager`: policies, constraints, `repositionVertex`, `flipEdge`, `splitEdge`, `collapseEdge`, `splitFace`; the mesh operations are arbitrary functions (instance: the mesh model); policies are addresses, callbacks do not re-enter the manager |
| `Ring` | the vertex lists `vHeInNext/Prev/Start`, `vHeOut…`: `generateVertexIterationCache`, `initializeHalfedgeNeighbors`, insertion and removal, iteration |
| `GMesh` | general `SurfaceMesh` (explicit siblings, non-manifold allowed, no boundary loops): `invertOrientation`, `duplicateFace`, `separateToNewEdge`, `separateNonmanifoldEdges`, `greedilyOrientFaces`, `getNewHalfedge/Edge/Face`; hypothesis "not near 2^63 elements" where storage grows |
| `MeshBuild` | polygon constructor of `ManifoldSurfaceMesh`: face loop with the edge lookup, boundary check, boundary loops, last check |
| `Rich` | `RichSurfaceMeshData` for manifold meshes: connectivity arrays (32-bit packing), from-arrays constructor, element properties; the PLY encoding is not modelled |
| `GRich` | the same for general meshes: siblings, edges, orientation bits; the from-arrays constructor of `SurfaceMesh` |
| `GMeshBuild` | polygon constructor of `SurfaceMesh`, for any visiting order of the hash map |
| `NormalCoords` | `strictDegree`, `cornerCoord`, `strictCornerCoord`, `flipNormalCoordinates`, `computeInteriorEdgeSplitDataCombinatorial`, `stepTopologicalCurve`, first crossing of `topologicalTrace(Corner)`; 32-bit `int` with overflow as undefined behaviour, 64-bit `size_t` with wrap-around, rounding and range check of `size_t`–`double` conversions; half-integers stored doubled; not the roundabouts, the geodesic variants or the loops of `topologicalTrace` |
| `Dijkstra` | `shortestEdgePath`, `vertexDijkstraDistanceWithinRadius`; any linear order with a monotone, non-decreasing addition (covers rounding), any tie-breaking of the queue; hash maps as association lists |
| `Delaunay`, `DelaunayGeom`, `DelaunayMesh` | `flipToDelaunay` of `simple_idt` (Euclidean, hyperbolic) and of signpost triangulations, `flipEdgeIfPossible`, `isDelaunay`; lengths over `ℝ`; the signpost angles themselves are not modelled; the work loop has a fuel, theorems are about runs that end |
| `Stats` | `nConnectedComponents` (manifold and general), `nInteriorVertices`, `isTriangular`, `hasBoundary`, the `get…Indices` functions, `getFaceVertexList` |
| `Intrinsic` | areas, dual areas, corner angles, angle sums, scaled angles, curvatures, cotangent weights, cotangent and Crouzeix–Raviart Laplacian, mass matrices, DEC operators, with real lengths; `setFromTriplets` sums duplicates |
| `Tangent` | length scales, halfedge vectors in faces and at vertices, transport across and along halfedges, the three connection Laplacians; `Vector2::undefined()` is an arbitrary vector |
| `Embedded` | lengths, areas, angles, cotangent weights, normals, dihedral angles, mean and principal curvatures, mean curvature normals, face and vertex tangent bases from positions, cached and immediate; not modelled: curvature directions; for polygons see `Polygon` |
| `DirectionFields` | direction_fields.cpp:407-490: `computeFaceIndex`, `computeVertexIndex`; `int` unbounded, complex powers exact |
| `Tufted` | tufted_laplacian.cpp:39-122: `buildIntrinsicTuftedCover` on general meshes; the sort around an edge (lines 87-103) is a parameter: any permutation. Not modelled: `buildTuftedLaplacian`, mollification |
| `Elementary` | `pointLineSegmentDistance` (2D, 3D), `pointLineSegmentNeaestLocation`, ray and segment intersections, `tetFourthPoint`, over the reals; division by zero is a separate value; `triTriIntersection` is not modelled |
| `SeparateVerts` | `getNewVertex` and `separateNonmanifoldVertices` of general meshes; `parents` and `vertexEntries` are total functions to `Option` with the bound of `vertexEntries` checked |
| `GNav` | neighbour iteration around vertices of general meshes (`VertexNeighborIteratorState`), `degree`, `isBoundary`, `connectingEdge`, `Vertex::isManifold`, `Vertex::isManifoldAndOriented`; the hash set of visited faces is a list |
| `GFlip` | `SurfaceMesh::flip` of general meshes including the temporary inversion of a face and the recursion |
| `TwinBuild` | `ManifoldSurfaceMesh(polygons, twins)`: halfedges keyed by the position of the side, boundary loops, capacities |
| `ToManifold` | `SurfaceMesh::isManifold`, `isOriented`, `getVertexIndices`, `getFaceIndices`, `getFaceVertexList`, `toManifoldMesh` on general meshes |
| `Subdivide` | `linearSubdivide`, `catmullClarkSubdivide` (without the final `compress()`), on top of `insertVertexAlongEdge`, `insertVertex`, `removeEdge` |
| `LoopSub` | `loopSubdivide` (without the final `compress()`), on top of `splitEdgeTriangular` and `flip` |
| `Simplify` | `Quadric`, `quadricErrorSimplify` (without the final `compress()`), on top of `collapseEdgeTriangular`; the linear solver is any function that solves solvable systems (`Solves`), where the code uses a column-pivoting Householder QR |
| `Surgery` | `cutAlongEdges` with `MeshData::setDefault` for the flags; the copy of the mesh is the mesh itself; the `while` loop over the queue has a fuel |
| `Polygon` | operators on polygon meshes of de Goes et al. (Laplacian, gradient, divergence, lumped mass, exterior calculus) and of Bunge et al. (virtual vertex with any solver for the least squares problem, Laplacian, Galerkin and lumped mass); not modelled: prolongation matrix, inverses of diagonal matrices |
| `PolygonConnection` | connection Laplacian for polygon meshes (de Goes et al.), `polygonVertexNormals`, for implicit twins; the bases of general `SurfaceMesh` objects (`buildTangentBasis`) only through the theorems for all bases |
| `StlOff` | readers for ASCII and binary STL files and for OFF files; numbers through an abstract format (`Num`), the comparison with the normal through an arbitrary test, so that rounding is not modelled; a size that was not read and bytes after the end of the file are errors when used |
| `PolygonHeat` | heat method on polygon meshes: heat operators, distance, extension of scalars, heat flow of vectors, sources of the signed distance, average on curves and integration without constraint; over exact reals, linear solvers are arbitrary functions that solve the systems that have a solution; the rest of the signed distance is in `PolygonSigned` |
| `PolygonSigned` | signed distance on polygon meshes: averages of the vectors on the faces, integration with the constraints `ZeroSet` and `Multiple`; blocks and stacked matrices as functions of the index, in the form shown in C37 |
| `HeatDistance` | `HeatMethodDistanceSolver` on meshes with implicit twins, without the option `useRobustLaplacian`: both matrices, the loop over the faces, `computeDistanceRHS`, `baryDist`, `computeDistance` for surface points; the solver is a parameter |
| `Bff` | `BFF`: the constructor, `dirichletToNeumann`, `neumannToDirichlet`, `computeBoundaryPositions`, the extension to the interior in `flattenFromBoth`; the solver is a parameter, blocks and reassembled vectors are selected by the index lists of C37 |
| `VectorHeat` | `VectorHeatMethodSolver`: `extendScalar`, `transportTangentVectors` and the two operators; the solvers are parameters; not modelled: the logarithmic maps and the unnormalised diffusions, and the choice between the two solver classes by the Delaunay test |
| `Uniformize` | `uniformizeDisk` with `withEdgeFlips = false`; the solver is a parameter; `flipToDelaunay` with hyperbolic flips is not modelled |
| `Stripes` | `crossingsModulo2Pi`, `matchCrossings`; not modelled: `computeOmega`, `computeTextureCoordinates`, `extractCrossingsFromStripePattern`, `connectIsolinesOnSingularities` |
| `Stripes` (singular faces) | `removeCrossings`; the order after `std::sort` is an argument; `findMin` and the positions are not modelled |
| `StripeEnergy` | `buildVertexEnergyMatrix`; the results of `computeOmega` at the edges (one-form and sheet flag) are arguments |
| `Quantity` | `DependentQuantity`, `refreshQuantities`, `purgeQuantities`; evaluation functions are arbitrary functions of inputs and dependencies |
| `Props.Genus` | `eulerCharacteristic`, `genus` against an independent genus |

See section 3 for later additions. Not modelled: everything else; in particular
explicit-twin (general) meshes in the mutation theorems, exceptions thrown by
user callbacks, memory allocation failure and concurrency.

## 2. Trusted base

* Lean 4.33.0 kernel and the Mathlib definitions used in statements.
* Axioms: at most `propext`, `Classical.choice`, `Quot.sound` (checked with
  `#print axioms`). No own axioms, no `sorry`, `native_decide`, `bv_decide`.
* Faithfulness of the hand transcription of the cited C++ lines.

## 3. Plan per property

| id | model | proof |
|----|-------|-------|
| C01–C15 | `Mesh`: the five connectivity arrays, all counters, `getNew*`, `delete*`, implicit twin `i ^ 1`; each mutation as a function `Mesh → args → Option Mesh` | `Valid` invariant (faces = cycles of `next`, vertices = cycles of `next ∘ twin`, boundary conventions, counts = cardinalities). Cycle surgery via a lemma on multiplying a permutation by a transposition; histories by induction |
| C16, C49 | range iterators over a deadness predicate; navigation iterators as fuelled loops | induction on the index distance; cycle lemma |
| C17, C18, C19, C47 | element store with callbacks: allocate/delete/compress and registered buffers | refinement to an abstract map `element id → value`, induction over histories; C18 is false with ≥ 2 loops: witness + partial |
| C20, C21 | face array with boundary loops at the back, growth | arithmetic invariant; C21 false from capacity 0: witness + partial |
| C22–C23 | polygon constructor as a fold over the list of polygons | invariant of the fold (half-built mesh), boundary loops as orbits of a rotation, corner graph of the input against `next ∘ twin`; accepted iff oriented manifold |
| C24 | edge grouping by sorted endpoint pair, sibling linking | induction on the halfedge list |
| C25–C28 | general `SurfaceMesh` arrays: doubly linked lists, sibling lists, `invertOrientation`, `duplicateFace`, `separateToNewEdge` | list-segment/cycle invariants; C27 count claim false: witness |
| C29 | orientation propagation by work-list over a face-adjacency graph | invariant "processed faces agree with the 2-colouring up to a global flip per component" |
| C30 | parent/rank arrays | refinement to equivalence closure |
| C31 | state machine of `DependentQuantity` and of the geometry interface | invariant over histories; exception path separately |
| C32 | integer formulas | systems of disjoint arcs in one and in two triangles (`Arcs`, `quadArcs`); `omega` after case split; witness with two arcs along a side |
| C58, C59 | one step of a curve; crossings of the new edges of an edge split | arcs of a triangle (`Arcs`), `omega`; witness with a negative `size_t` |
| C33–C35 | lists of polygons | list induction |
| C36 | save/load of arrays, manifold and general meshes | round trip, vertex lists rebuilt by C25; witness for spare capacity |
| C37, C38 | matrices as functions on `Fin`/`Nat` triplet lists, sums over `Finset` | reindexing of sums |
| C39 | Dijkstra loop with arbitrary choice of a minimal queue element | settled-set invariant |
| C40, C41, C50, C42, C43, C48 | formulas over a field / `ℝ` | `ring`, `nlinarith`, case split on element type |
| C44 | policy lists and pointer sets | induction over histories; dangling pointer as explicit outcome |
| C45 | index arithmetic of the node lookup and the cubic basis | arithmetic, `ring` |
| C54 | hits of `marchingTriangles` | sign cases; witness with a value on the level |
| C55 | `parseFaceIndex` stays in its array | number of pieces ≤ slashes + 1; witness with three slashes |
| C60, C61 | work loop of the Delaunay flips, planar layout of two triangles | loop invariant "an edge not in the queue is Delaunay"; convexity from the sign of the cotangents; termination is not proved |
| C62, C63 | loops over ranges, disjoint sets; face list | C16 ranges, C30 disjoint sets; corners of the face list against halfedges, then C22/C23; witnesses: single general triangle, two triangles glued along two sides |
| C64–C66 | loops over ranges, triplet lists | C16/C49 ranges turn loops into finite sums over halfedges (`IntrinsicBasic`); law of cosines for the angle sum; Heron for the cotangent form; counting with C16 for the Euler characteristic |
| C67 | the walk around a vertex, one pass over the edges | the orbit of `vNext` (C16) read backwards gives partial sums of angles; corners as rotations in ℂ, telescoping product around the vertex |
| C68 | triplet lists | sums over halfedges as in C65; a term per edge, or per corner, is a square by |rot| = 1 or by the law of cosines |
| C69 | loops over ranges | Lagrange identity for the cross product gives Heron's formula; then term by term |
| C70 | loops over ranges, corner lists of C49 | vector algebra in ℝ³ over the cross product; two unit normals orthogonal to the same axis differ by the rotation by their `atan2` |
| C71 | the corner loop | sum of corner cross products is 2V − Σ pᵢ×pᵢ₊₂; the second sum vanishes for degree ≤ 4; a notched pentagon otherwise |
| C72 | the loop over edges | derivative of ‖n(t)‖ with n quadratic in t; n·n' is a sum over the corners of cotangent numerators times edge products |
| C73 | the loop over a face or a vertex, holonomy of C67, Gauss–Bonnet of C64 | e^{iδ} times transport carries one unit vector to the next; the product around closes up, so the total turn is a multiple of 2π; opposite halfedges cancel, or both turn by −π |
| C74 | C27 (duplicate), C26 (invert), C28 (separate); invariants over the faces and, nested, over the edges and the faces around an edge | of the two copies one runs along the edge and one against it; step j joins the one against of face j with the one along of face j+1; the last pair keeps the old edge |
| C75 | formulas over ℝ | the clamp minimizes a quadratic; Cramer's rule; expansion in the orthonormal basis of the triangle |
| C76 | `GMesh.Valid`, edge-manifold | the merges are a list of union-find operations (C30), whose relation is corner adjacency; invariant of the corner loop over the fixed root function; rings by C25 |
| C77 | `GMesh.Valid`; for the fan tests no face twice at the vertex, no loop there, manifold edges | the states are one cycle through the two rings; canonical halfedges are in bijection with edge ends; graph search with explicit fuel bound; a closed fan is an orbit of `next ∘ sibling` whose length is the number of edges |
| C78 | `GMesh.Valid`, no face with one side | the six halfedges are distinct; two 3-cycles exchange a member (`KeyOrb.flip`); vertex lists by C25; inversion by C26; the recursion has depth two because the inverted face no longer agrees |
| C79 | `Glued` (same shape, mutual twins, opposite directions, no self-edges, degree at least 3), sizes below the index limit | invariant over the sides entered so far (`TInv`); boundary loops as in C22 (`resolveAll_ok`); validity by `RI.valid` |
| C80 | `Valid`, no loop edges, no faces of two sides, `4 * (nHeFill + 1) < INVALID_IND` | lists behind the calls (`GLists`, `TwinLists`), hypotheses of C79 from validity (`TwinLists.glued`), fans of corners carried over (`TwinLists.fans`) |
| C81 | `Valid`, `heNext (2e+1) ≠ 2e` (no `e.halfedge()` starts at a vertex of degree one), room in the storage | invariants of the loop over edges (`EInv`), of the removal of spokes (`RInv`) and of the loop over faces (`FInv`); the result is described by maps from old halfedges (`Quadrangulated`) |
| C82 | `Valid`, `TriFaces`, `NoLoops` (no edge from a vertex to itself), `NoDegTwo` (no vertex of degree two inside; only for the exact shape), room in the storage | invariant of the loop over edges (`LInv`), with the pieces of each side and the state of each triangle by the number of sides split so far (`Tab`); the flips touch disjoint pairs of triangles (`flips_ok`) and none is refused (`LInv.turn`); the result is described by maps from old halfedges (`LoopRefined`) |
| C83 | `Valid`, `TriMesh`, `NoDouble` (no two halfedges with the same ends); closed and `NonDegenerate` for the positions; real arithmetic for `C83_quadrics`, `C83_result_partial`, `C83_tetra` | the absence of double edges is kept by every collapse (`collapse_simple`), so the faulty cases of C13 cannot come up; invariants over the states of the loop (`Passes`): `Contracts`, an exact entry or a refusal for each edge, and the quadric of a vertex as a sum over the vertices merged into it |
| C84 | `Valid`, triangles, no gaps in the halfedge storage (`nHe = nHeFill`), the edges form one tree (`Forest`: each part has more vertices than edges; `OneTree`) without vertices on the boundary, room for the new elements | invariant of the loop (`CutRun`): the mesh is cut open (`CutOpen`) along the edges met so far, and each waiting edge has exactly one end among their vertices, because of `Forest`; a leaf exists by counting ends; `C11_partial` for each cut |
| C85 | `Valid`, faces of positive area, λ > 0; gradient and linear functions for degree three and four, where the stored normal is the normal of the vector area (C71) | matrices over `Fin n` as linear maps (`sharp`, `flat` as sums of cross products); forms added up over the faces (`assemble`); the vector area as a sum over the sides; for triangles `P d = 0` |
| C86 | `Valid`, a solver that solves every solvable system (`Solves`, stands for `completeOrthogonalDecomposition().solve`); kernel, linear functions and the cotangent case when every triangle of the refinement has twice the area above 1e-7 | bilinear forms of the accumulating loops; Heron's formula; the normal equations are solvable by orthogonal projection and their solutions are minima |
| C87 | `Valid`; faces of positive area, oriented orthonormal bases, no opposite normals (for the form, definiteness and kernel); triangle meshes that are not degenerate (for the bases of the code) | blocks of the per-face matrix reduce to the scalar matrix times products of unit complex numbers; Rodrigues' formula |
| C88 | coordinates are written in a format that is read exactly; sizes below 2^64 (for the files that are read as given); none (for the statements about all files) | induction over the lines and over the records; words of a line as an inductive relation that allows any blanks |
| C89 | faces with area; sources with indices below the number of vertices (extension); connected mesh with planar triangles and quadrilaterals and heat flow linear on each face along the function (distance); non-empty curves of positive length (signed distance) | forms of the operators from C85; a definite matrix is onto; gradients of linear functions; kernel of the Laplacian on connected meshes |
| C90 | connected mesh with planar triangles and quadrilaterals with area, curves through live vertices, unit vectors that are negative gradients of a function vanishing on the curves (`ZeroSet`) or constant on each curve (`Multiple`) | a semidefinite matrix vanishes where its form does; the difference to the function has form zero because it vanishes on the curves or the multipliers drop out |
| C91 | triangle mesh with the triangle inequality, `tCoef ≥ 0`; for the recovery: in each face the heat falls off along the gradient of a function with gradient of length one | the rotated edges weighted with the heat sum to twice the area times the gradient; the shifted system is tested with its solution. Missing: exact recovery, which fails because of the shift (see section 4) |
| C92 | triangulated disk as tested by the constructor, triangle inequality; for the scale factors from angles: connected mesh, angles with sum 2π, a solver that solves singular systems that have a solution | the shifted matrix is definite; by Gauss-Bonnet the right-hand side has sum zero; the second loop telescopes, its total is zero by the normal equations. Missing: the angles from scale factors, which are those of the negated scale factors (see section 4); that the polygon does not cross itself |
| C93 | triangle inequality, sources at points of the surface; for the ranges: connected mesh, nonnegative cotangent weights, positive time; for parallel fields: sources at vertices | discrete maximum principle: the least entry of a solution is nonnegative, and the set where it is zero is closed under neighbours; the scalar system conjugated by a parallel field is the vector system, whose solution is unique |
| C94 | compressed mesh (indices are ids); for the equation of a pass and flat metrics: connected, boundary, triangle inequality, exact solver | induction over the passes; the interior block is definite because a vector in its kernel is constant and zero at the boundary; `C94_linear` differentiates the angles of a scaled triangle and moves the sum over the corners at a vertex to the row of the Laplacian. Not claimed: edge flips, the triangle inequality after a pass, and convergence of the curvatures to zero |
| C95 | none for the crossings and faces; for the matching: the lengths satisfy the asserted inequalities and parity; for planarity: crossings numbered along the boundary | closed form of the lists with the ceilings of the corner values; the three counts are differences of three integers, so the largest is the sum of the others; permutation by counting; planarity by cases over the kinds of segments |
| C96 | stripe index at most two; `values` lists every crossing once | invariant of the loop (the crossings of the chosen edge that are not yet met exceed the others by at least `M`); the counts are differences of integers that add up to the index. For larger indices the statement is false (`C96_fails`) |
| C97 | valid mesh; for definiteness: nonnegative weights | sum over the triplets of an edge, completed to a square |
| C46 | segment graph traversal | invariant of the walk |

Not expressible: performance claims, floating-point accuracy, behaviour of
external libraries (Eigen, SuiteSparse, nanoflann, happly) — not modelled.

## 4. Known disagreements between code and claims

Collected while reading; each is proved as a negation with a concrete witness
where the model covers it (see MANIFEST.json for the theorem names).

* `flip(…, preventSelfEdges=true)` only looks for an existing edge between the
  two opposite vertices; if these are the same vertex it still flips and makes a
  self-edge (C03).
* `compressFaces` hands the boundary-loop permutation to `BoundaryLoopData` in
  ascending face order, which is descending loop order (C18).
* `separateEdge`, `removeFaceAlongBoundary`, `duplicateFace`,
  `deleteElement(Halfedge)` leave `nInteriorHalfedgesCount` wrong (C11, C14, C27).
* `switchHalfedgeSides` with a degree-1 endpoint writes a self-loop (C12); a
  boundary self-edge is harmless (`WeakValid.ext_not_self`);
  `insertVertexAlongEdge` with a degree-1 tail vertex loses a halfedge (C04).
* `removeVertex` of a degree-1 vertex inside a triangle leaves a face with one
  halfedge (C10).
* `separateEdge` besides: at an edge from a vertex to itself both ends of the slit meet in
  one vertex; at a polygon of the split boundary vertex the loop over the fan
  (`next().next().twin()`) leaves the vertex (C11).
* `removeFaceAlongBoundary` besides: at a polygon it tests and repairs only the
  corner before the boundary edge. Another corner on the boundary gives an
  hourglass vertex, another interior corner keeps a stored halfedge that denies
  the boundary, unless the switch of the edge before it happens to repair it (C14).
* `collapseEdgeTriangular` accepts an inner edge to a vertex of degree one and a
  boundary edge on a loop of two edges, and leaves an invalid mesh (C13). It returns
  before `modificationTick++` in every case (not modelled).
* `getNewVertex`, `expandFaceStorage`, `PointCloud::getNewPoint` double a
  capacity of 0 (C21).
* `DependentQuantity::unrequire` throws with the count left negative (C31).
* `SimplePolygonMesh::triangulate` leaves `paramCoordinates` alone (C35).
* `RichSurfaceMeshData` writes capacity-dependent boundary-loop indices (C36).
* `SurfacePoint::inEdge` swaps the ends for vertex points (C40), and
  `BarycentricVector(pA, pB)` on an edge has the wrong sign for edge points (C41).
* Two points of one edge, or a vertex and an edge point, give a wrong
  `BarycentricVector`, and its `inFace` accepts edges outside the face (C41).
  (`Vector2::rotate` rotates clockwise, as its declaration warns: no finding.)
* `MutationManager::removePolicy` forgets the face-split list, so the next face split
  calls a deleted object; a collapse the mesh refuses has already run the
  before-callbacks; the before-callbacks of a flip see the two halfedges of the edge
  exchanged (C44). `collapseEdge(e, position)` shadows `tCollapse`: callbacks get −1 (C56).
* `shortestEdgePath` takes `he.twin().vertex()` for the tip, which is wrong on a general
  `SurfaceMesh`: on a single triangle it finds no path at all (C39).
* `vertexDijkstraDistanceWithinRadius` never gives back the edge lengths it requires (C57).
* `HermiteCurve::length` is one too large (C45).
* `FMMDistance` mixes up two side lengths for face sources (C48).
* `splitEdgeTriangular` on an edge with the same triangle on both sides throws
  after it has changed the mesh (C07).
* Histories: a flip can make a degree-1 vertex, after which
  `insertVertexAlongEdge` breaks the mesh (C15).
* `genus()` counts boundary loops as faces and subtracts them again; it is right
  only for closed connected meshes and discs, e.g. −1 for an annulus (C51).
* `marchingTriangles` skips a triangle when the level passes through one of its
  corners and the opposite side (three hits instead of two): a gap in the curve (C54).
* `parseFaceIndex` starts from the indices {1,1,1}, so a corner without a texture index
  gets texture index 0 instead of "none": every mesh read from a file without texture
  coordinates has one empty texture list per face and `hasParameterization()` is true (C34).
* `parseFaceIndex` writes `indices[3]` for a token with three slashes (C55).
* `cornerCoord` forgets the positive part of the opposite side: with two or more arcs along that
  side, which `flipNormalCoordinates` can produce, it counts arcs that are not there (C32).
* `computeInteriorEdgeSplitDataCombinatorial` (and the geodesic variants) subtract in `size_t` before
  taking the positive part; a negative difference becomes 2^64 as a `double`, and converting that
  back is undefined behaviour (C59).
* `flipToDelaunay` of `simple_idt` throws `"boundary"` at the first boundary edge it takes from the queue (the intended
  `return false` is commented out): it never returns on a mesh with boundary, nor does `uniformizeDisk` with edge flips (C60).
* `consistentlyOrientFaces` takes two sides from a vertex to itself for sides in the same direction and
  reverses a face that was right (C29).
* `nConnectedComponents` takes `twin().vertex()` for the other end of an edge: on a general `SurfaceMesh` with boundary it counts
  too many, e.g. 3 for a single triangle (C62).
* `getFaceVertexList` (and so writing and reading a file) loses the gluing: two boundary edges between the same two vertices
  are glued when the mesh is rebuilt (C63).
* `computeFaceConnectionLaplacian` stores the column index in an `unsigned int` (intrinsic_geometry_interface.cpp:566): with more than 2^32 faces the off-diagonal entries land in the wrong column. C68 has the hypothesis `nF ≤ 2^32`.
* `computeFaceNormals`/`faceNormal` sum the cross products at the corners; the documentation (quantities.md:743) promises the normalized vector area. They agree up to degree four (C71), but for a notched planar pentagon the normal points to the wrong side (`C71_pentagon`).
* The documentation (quantities.md:779) says the dual mean curvature normals are the derivative of the area; they are half of it (C72).
* `computeFaceIndex`/`computeVertexIndex` take the turn along an edge in [−π, π). If the two vectors are exactly opposite, both sides of the edge count −π, and the indices of a closed surface sum to n·χ minus the number of such edges; every closed surface has such a field of unit vectors (`C73_half_turn`).
* `tetFourthPoint` returns the negatively oriented solution, the declaration (elementary_geometry.h:79-81) promises the positively oriented one: the test `vol1 < 0` never holds, since the basis is right-handed (C75).
* `segmentSegmentIntersection` never reports parallel segments, not even overlapping ones (C75).
- **`Vertex::isManifoldAndOriented` is false at every boundary vertex of a general mesh** (C77_oriented_boundary, C77_oriented_refuted): the loop `next().sibling()` at halfedge_element_types.ipp:56-61 needs the sibling of a boundary halfedge to leave the face, but there it is the halfedge itself, so the walk reaches the next vertex and the test fails; elements.md promises true for manifold oriented neighbourhoods.
- **`Vertex::isManifold` accepts a pinched vertex** (C77_fan_refuted): it searches faces, not corners (halfedge_element_types.ipp:74-93), so a face that meets the vertex twice counts as connected; for the hexagon 0 1 2 0 3 4 it answers true, while `separateNonmanifoldVertices` splits vertex 0.
- `flip(e, true)` on a general mesh makes a self-edge when both triangles have the same opposite vertex (C78_self_edge), as in C03. A face with one side passes the test `ha3.next() != ha1` for triangles (surface_mesh.cpp:855); C78 excludes such faces, which the constructors do not make.
- `ManifoldSurfaceMesh(polygons, twins)` lacks the checks of the constructor from polygons: it accepts vertices whose corners are not connected (C79_vertex), unused indices (C79_unused), an empty list (C79_empty), twins between different vertices (C79_mismatch), twins that are not mutual or do not exist (C79_oneSided). Its "duplicate edge" assertion (line 325) can never fail: the key is the position of the side itself. It does not set `nEdgesCapacityCount` (lines 429-437), which then differs from half the capacity of the halfedges (C79_capacity).
- `SurfaceMesh::isManifold` and `isOriented` accept meshes that `toManifoldMesh` cannot convert: on a hexagon that meets a vertex twice the constructor throws (C80_pinch), and on a sphere with two points glued together it returns, without error, a `ManifoldSurfaceMesh` whose halfedges around the glued vertex form two cycles (C80_sphere). The cause is that `Vertex::isManifold` walks over faces instead of corners (C77_fan_refuted). An empty mesh is converted to a mesh that counts a vertex without halfedge (C80_empty).
- `catmullClarkSubdivide` reads a `FaceData` outside its storage on every mesh with boundary, as `splitEdgePositions` uses the face of both sides of an edge and the indices of boundary loops lie behind the places of the container (C81_catmullClark_boundary). On closed meshes its rules are not those of Catmull and Clark: the new vertex of an edge is the mean of the two face centres only, and the `R` of the vertex rule is the mean of these instead of the mean of the midpoints of the edges (C81_catmullClark, C81_catmullClark_fails).
- `linearSubdivide` and `catmullClarkSubdivide` throw on a valid mesh with a vertex of degree one: `insertVertexAlongEdge` then returns a halfedge whose neighbours are not the ends of the old edge (C81_fails).
- `loopSubdivide` calls `flip` with the default that refuses to join two vertices twice. On a mesh with a vertex of degree two inside (two triangles sharing two sides) one of the flips is refused silently and the result is not the refined mesh: an edge from an old vertex to the middle of the opposite side stays (C82_pillow).
- `loopSubdivide` treats old vertices on the boundary like inner ones, so that the boundary curve depends on the inside of the mesh, while the new vertices on the boundary are put half way (C82_boundary_rule).
- `quadricErrorSimplify` throws in the middle of its work, with the mesh already changed, when a closed component has shrunk to two triangles: any tetrahedron with a large enough tolerance does this (C83_tetra). A non-triangular face makes it throw as well.
- For a boundary edge whose first vertex has degree two, `collapseEdgeTriangular` collapses the other boundary edge at this vertex; `quadricErrorSimplify` does not see this, stores the quadric of the requested edge and the wrong optimal point at the vertex it gets back, and the quadric of the vertex that was removed is lost (C83_ear).
- `quadricErrorSimplify` requires the face normals and never gives them back (C83_leak). An outdated entry is used if its cost is within 1e-8 of the present one, so costs may exceed the tolerance by that much.
- `cutAlongEdges` cuts only one tree if the edges form several: the one of the first leaf edge found. The others are left out without an exception (C84_one_tree, C84_second_tree_left).
- After `cutAlongEdges` `nInteriorHalfedges()` and `nCorners()` are too large by the number of cut edges, from the same error as in C11 (C84_wrong_count, C84_fails).
- surgery.h promises that all halfedges but the new exterior ones have parents; the exterior halfedges of the old boundary lose theirs as well (C84_old_boundary). On a mesh with gaps in the storage only the first `nHalfedges()` entries are filled and halfedges of faces are left without parents (C84_gaps).
- If the tree has a vertex on the boundary, `cutAlongEdges` works or throws depending on which leaf edge has the smallest index (C84_boundary_order). An empty set of edges and a closed curve throw (C84_no_leaf).
- `polygonGradientMatrix` holds minus the gradient, against quantities.md:616 and the comment at embedded_geometry_interface.cpp:884 (C85_gradient_partial and the `example` on the unit square). The divergence matrix made from it has the right sign; `PolygonMeshHeatSolver::computeDistance` works with both signs as they are.
- On a planar polygon of degree five or more the stored face normal can point the wrong way (C71); `polygonLaplacian` then does not have the energy of linear functions: 5/2 + 136 λ instead of 5/2 (C85_pentagon).
- quantities.md:672 says that `polygonHodge1` is diagonal on triangle meshes. It is not: on a right triangle the entry of two different halfedges is 5/18 (C85_hodge1_not_diagonal). Only `d0^T hodge1 d0` is that of the diagonal cotangent Hodge star (C85_cotan, C85_dec).
- `simplePolygonStiffnessMatrix` skips triangles of the refinement with `area > 1e-7` false, an absolute bound (on twice the area). On a triangle mesh all of whose triangles have at most 1.5e-7 as area `simplePolygonLaplacian` is the zero matrix (C86_tiny), against quantities.md:563 ("becomes the standard cotan Laplacian"); C86_small has one triangle with legs 1e-4.
- `computePolygonVertexConnectionLaplacian` on a `ManifoldSurfaceMesh` requires `vertexTangentBasis` and `faceTangentBasis`, and through them `halfedgeVectorsInFace`, which asserts that all faces are triangles. The operator for polygon meshes throws on every mesh with a face that is not a triangle (C87_throws).
- `computePolygonVertexConnectionLaplacian` takes vertex bases that are normal to `vertexNormals` (weights: corner angles) and turns them by `Qvf`, made from `polygonVertexNormals` (weights: areas). Where these normals differ, `Rvf` is not a rotation, so the form and the definiteness of C87_connection are only proved where they agree (C87_triangle_partial).
- quantities.md:653 calls `polygonVertexConnectionLaplacian` "always symmetric and positive-definite". It is Hermitian and at most semidefinite: on flat meshes every constant field is in its kernel (C87_flat).
- `Qvf` returns minus the identity for opposite normals, which is a reflection and not a rotation (excluded by hypothesis in C87_connection).
- `readMeshFromAsciiStlFile` reads `face[0]`, `face[1]`, `face[2]` of every facet. A facet with fewer than three corners makes it read outside of the vector (C88_ascii_short).
- `readMeshFromBinaryStlFile` does not check that its reads succeed: for a file that is shorter than its header says it uses bytes that were never read (C88_binary_sound).
- `readMeshFromStlFile` takes every file whose first five letters are `solid` as text. A binary file with such a header and without a newline byte is read as an empty mesh, without an error (C88_solid).
- `readMeshFromOffFile` does not check that the numbers of a line were read. A face line with fewer indices than its degree (C88_off_short) or a line with fewer than two counts (C88_off_count) leaves them unset. Lines with only a carriage return are not skipped, so that an OFF file with DOS line ends and an empty line after the header is such a file.
- `readMeshFromOffFile` does not compare the indices with the number of vertices (C88_off holds for all indices).
- `PolygonMeshHeatSolver::extendScalars` enters the sources at `getIndex()` and not at their index among the live vertices, unlike `computeDistance`. On a mesh with deleted vertices a source may be written outside of the vector (C89_extend_gap).
- `extendScalars` overwrites the value of a repeated source, while `computeDistance` and `transportTangentVectors` add sources up (model).
- `transportTangentVectors` and `computeSignedDistance` of the solver for polygon meshes have no result on a mesh with a face that is not a triangle (C89_vector_throws).
- `buildSignedCurveSource` and `computeAverageValue` run over `curve.size() - 1` segments; for an empty curve this is the largest `size_t` (C89_source, C89_average).
- `computeAverageValue` divides by the length of the curves, which is zero for curves with one vertex (C89_average). `computeDistance` divides by the norm of the gradient, which is zero where the heat is constant (model).
- `PolygonMeshHeatSolver::computeSignedDistance` with `LevelSetConstraint::Multiple` passes a matrix to `solveSquare` that is singular on every mesh: the Laplacian and the constraints both vanish on constants (C90_multiple_singular). The result depends on how the factorisation treats singular matrices.
- `HeatMethodDistanceSolver` integrates the gradients with the Laplacian shifted by `1e-6` times the identity (the comment in the code calls the shift unnecessary in theory). Even when the gradients are those of the exact distance, the result is the distance up to a constant only if the distance is constant (C91_recover_partial); the error is bounded there by the energy of the difference.
- `BFF::dirichletToNeumann` has the wrong sign in front of the scale factors: it solves with `Omegai - Lib * uBdy` and subtracts `Lbb * uBdy`, which gives the exterior angles of the flat metric with scale factors `-uBdy`. `flattenFromScaleFactors` then combines these angles with lengths scaled by `exp(+u)`. The two agree only if `u` is zero on the boundary, as in `flatten()` (C92_neumann). `neumannToDirichlet` has the right sign (C92_dirichlet).
- The constructor of `BFF` declares a local `L` that hides the member, and shifts the diagonal of the local matrix only. `ensureHaveLSolver` passes the unshifted member to `PositiveDefiniteSolver`: its rows have sum zero, so it is singular on every mesh (C92_dirichlet).
- The test for a disk in the constructor of `BFF` compares the Euler characteristic and the number of boundary loops; a disk together with a torus passes it. C92_dirichlet assumes a connected mesh.
- `transportTangentVectors` with a source in a face or on an edge adds the vector, unchanged, to the entries of the three vertices of a face, although the documentation says that it is given in the tangent space of the face or edge and each vertex has a tangent space of its own. The result at such sources depends on the choice of the first halfedge at the three vertices. C93_lengths and C93_rotation hold for these sources; C93_parallel is stated for sources at vertices.
- `VectorHeatMethodSolver::ensureHavePoissonSolver` passes the cotan Laplacian without shift to `PositiveDefiniteSolver`; its rows have sum zero (C65_cotan), so it is singular on every mesh.
- `uniformizeDisk` fills `isInterior` with `mesh.vertex(i)` for `i` below `nVertices()`, so it takes positions in vectors for ids of vertices. On a mesh that is not compressed it asks deleted vertices whether they are on the boundary and misses others. C94 assumes a compressed mesh.
- The test for a disk in `uniformizeDisk` and `parameterizeDisk` is commented out. Without boundary the matrix `decomp.AA` is the whole cotan Laplacian, which is singular.
- The comment of `crossingsModulo2Pi` says `val1 < 2 k pi < val2`, but the smaller end is included (`C95_endpoint`: the list for 0 and 1 is [1]). At a vertex whose value is a multiple of 2 pi the isoline gets one point at the same position for every edge to a larger value.
- In a face without singularity the crossings of the longest edge are always as many as those of the two others together (`C95_face`), so the second case of `matchCrossings` is reached only for faces whose lists come from elsewhere.
- `removeCrossings` only keeps the inequality for the edge that had most crossings at the start. At a face of stripe index three with one, two and two crossings it can leave both crossings of one edge and none on the others; the assertion `nIJ <= nJK + nKI` in `matchCrossings` then fails, and without assertions `KI[nKI - m - 1]` is read with index -1 (`C96_fails`). Indices up to two are safe (`C96_singular_partial`).
- `smallestEigenvectorPositiveDefinite` is called on the energy matrix of a stripe pattern, which is shifted by 1e-4 only. With negative cotan weights it need not be positive definite; C97 assumes nonnegative weights for that part.
* The polygon constructor computes the vertex count as the largest index plus one; if `INVALID_IND` occurs as
  an index the count wraps to 0 and the first write is out of bounds (outside the bounds of C23).
