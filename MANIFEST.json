{
 "claims": [
  {
   "property": "C01",
   "status": "proved",
   "theorems": [
    "GC.C01_flip_valid"
   ],
   "note": ""
  },
  {
   "property": "C02",
   "status": "proved",
   "theorems": [
    "GC.C02_flip_refused",
    "GC.C02_flip_iff",
    "GC.C02_flip_endpoints",
    "GC.C02_flip_twice",
    "GC.C02_flip_four"
   ],
   "note": ""
  },
  {
   "property": "C03",
   "status": "partial",
   "theorems": [
    "GC.C03_flip_preventSelfEdges_partial",
    "GC.C03_flip_preventSelfEdges_fails"
   ],
   "note": "False when the two opposite vertices coincide: witness proved. Proved for distinct opposite vertices."
  },
  {
   "property": "C04",
   "status": "partial",
   "theorems": [
    "GC.C04_insertVertexAlongEdge_partial",
    "GC.C04_insertVertexAlongEdge_fails"
   ],
   "note": "False for edges starting at a degree-one vertex: witness proved. Proved for all other edges."
  },
  {
   "property": "C05",
   "status": "proved",
   "theorems": [
    "GC.C05_connectVertices",
    "GC.C05_connectVertices_refused"
   ],
   "note": ""
  },
  {
   "property": "C06",
   "status": "proved",
   "theorems": [
    "GC.C06_insertVertex"
   ],
   "note": ""
  },
  {
   "property": "C07",
   "status": "partial",
   "theorems": [
    "GC.C07_splitEdgeTriangular_partial",
    "GC.C07_splitEdgeTriangular_fails"
   ],
   "note": "False when one triangle lies on both sides of the edge (throws after mutating): witness proved. Proved for all other edges."
  },
  {
   "property": "C08",
   "status": "proved",
   "theorems": [
    "GC.C08_triangulate"
   ],
   "note": ""
  },
  {
   "property": "C09",
   "status": "proved",
   "theorems": [
    "GC.C09_removeEdge",
    "GC.C09_removeEdge_boundary",
    "GC.C09_undoes_connectVertices"
   ],
   "note": ""
  },
  {
   "property": "C10",
   "status": "partial",
   "theorems": [
    "GC.Mesh.C10_partial",
    "GC.Mesh.C10_boundary",
    "GC.Mesh.C10_fails",
    "GC.Mesh.C10_statement_fails"
   ],
   "note": "For an interior vertex of any degree in any valid mesh: refusal (null face, mesh unchanged) exactly when the star is not an embedded disk; otherwise a valid mesh with the stated counts, live elements, faces, successors. Excluded: a vertex of degree one inside a triangle, where the code leaves a face of degree one (C10_fails)."
  },
  {
   "property": "C11",
   "status": "partial",
   "theorems": [
    "GC.Mesh.C11_partial",
    "GC.Mesh.C11_refuses",
    "GC.Mesh.C11_fails_count",
    "GC.Mesh.C11_statement_fails",
    "GC.Mesh.C11_fails_loop",
    "GC.Mesh.C11_fails_polygon"
   ],
   "note": "Both implemented cases: the result is the mesh slit along the edge (new places of the corners, two boundary edges, all invariants) with the interior-halfedge count one too large, for edges between different vertices and triangles at a boundary endpoint. The count claim is refuted for every such run; the two excluded situations are refuted by witnesses. Refusals: boundary edges and edges with two boundary endpoints."
  },
  {
   "property": "C12",
   "status": "partial",
   "theorems": [
    "GC.C12_switchHalfedgeSides_partial",
    "GC.C12_ensureEdgeHasInteriorHalfedge_partial",
    "GC.C12_fails_degreeOne"
   ],
   "note": "Proved for every edge without a degree-one endpoint: the result is the mesh with the two halfedges renamed, and switching twice restores it. With a degree-one endpoint the code breaks the mesh (C12_fails_degreeOne)."
  },
  {
   "property": "C13",
   "status": "partial",
   "theorems": [
    "GC.Mesh.C13_partial",
    "GC.Mesh.C13_fails_degree_one",
    "GC.Mesh.C13_fails_loop2",
    "GC.Mesh.C13_statement_fails"
   ],
   "note": "Proved for every valid triangle mesh and every edge, except an edge whose first halfedge arrives at a degree-one vertex and a boundary edge on a loop of two edges; in both exceptions the code leaves an invalid mesh (proved with witnesses), so the full statement is refuted. The result is exact: which edges are refused (boundary chord, pinch, loop of three, degree below three), and for the others validity, the triangle property, the merged vertex, the remaining faces and all counts."
  },
  {
   "property": "C14",
   "status": "partial",
   "theorems": [
    "GC.Mesh.C14_partial",
    "GC.Mesh.C14_triangle_partial",
    "GC.Mesh.C14_refuses",
    "GC.Mesh.C14_fails_count",
    "GC.Mesh.C14_fails_polygon",
    "GC.Mesh.C14_fails_hourglass",
    "GC.Mesh.C14_statement_fails"
   ],
   "note": "All valid meshes and faces with one boundary edge: triangles completely (refused when the opposite vertex is on the boundary, else removed), polygons when the other corners are interior, occur once and store the right halfedge; the result is the mesh without the face except for the interior-halfedge count. Refuted: the count is never lowered (result not valid); polygons with another corner on the boundary (hourglass) or with a wrong stored halfedge at another corner."
  },
  {
   "property": "C15",
   "status": "partial",
   "theorems": [
    "GC.C15_histories_partial",
    "GC.C15_histories_safe",
    "GC.C15_histories_fails"
   ],
   "note": "False as stated: insertVertexAlongEdge on an edge out of a degree-one vertex (reachable by flip) gives an invalid mesh (C15_histories_fails). Proved for all histories that avoid that call and avoid splitEdgeTriangular on an edge with the same face on both sides."
  },
  {
   "property": "C16",
   "status": "proved",
   "theorems": [
    "GC.C16_ranges",
    "GC.C16_histories"
   ],
   "note": "Ranges and counters of every valid mesh; validity is preserved by all modelled mutations (C01-C09, C15)."
  },
  {
   "property": "C17",
   "status": "proved",
   "theorems": [
    "GC.C17_values",
    "GC.C17_distinct",
    "GC.C17_new_default",
    "GC.C17_default_kept",
    "GC.C17_reachable",
    "GC.C17_link_alloc",
    "GC.C17_link_compress"
   ],
   "note": "All histories of allocation, deletion, compression, container creation/copy/assignment/fill/default change; pools linked to the mesh's vertex, halfedge, edge and face storage. Boundary loop containers: see C18."
  },
  {
   "property": "C18",
   "status": "partial",
   "theorems": [
    "GC.C18_boundaryLoopData_partial",
    "GC.C18_compress_reverses",
    "GC.C18_fails"
   ],
   "note": "Refuted: for every valid mesh with at least two boundary loops compress reverses the boundary loop containers relative to the loops (C18_fails); proved for at most one loop, and the exact reversal is proved in general."
  },
  {
   "property": "C19",
   "status": "proved",
   "theorems": [
    "GC.C19_compress",
    "GC.C19_compress_flagged",
    "GC.C19_compress_dense"
   ],
   "note": "compress of any valid mesh whose spare slots are unused (SpareOk; kept by every modelled operation's allocation discipline) yields a valid dense mesh isomorphic to the old one through the index maps of the callbacks."
  },
  {
   "property": "C20",
   "status": "proved",
   "theorems": [
    "GC.C20_expandFaceStorage",
    "GC.C20_getNewFace_fresh"
   ],
   "note": ""
  },
  {
   "property": "C21",
   "status": "partial",
   "theorems": [
    "GC.C21_alloc_partial",
    "GC.C21_alloc_empty_fails"
   ],
   "note": "False with capacity 0: witness proved. Proved for nonzero capacity."
  },
  {
   "property": "C22",
   "status": "proved",
   "theorems": [
    "GC.Mesh.C22",
    "GC.Mesh.fromPolygons_cases"
   ],
   "note": "All polygon lists. Represents: face cycles in the given order from the first halfedge, halfedges = sides and their reverses, boundary loops = reverses of unmatched sides, vertices = the indices that occur."
  },
  {
   "property": "C23",
   "status": "proved",
   "theorems": [
    "GC.Mesh.C23",
    "GC.Mesh.C23_accept",
    "GC.Mesh.fromPolygons_cases"
   ],
   "note": "All five conditions (and the empty list) throw; conversely every oriented-manifold list is accepted. Bounds exclude refused storage and the index INVALID_IND, whose treatment is undefined behaviour."
  },
  {
   "property": "C24",
   "status": "proved",
   "theorems": [
    "GC.GMesh.C24",
    "GC.GMesh.C24_short",
    "GC.GMesh.C24_unused"
   ],
   "note": "For every list of polygons (manifold or not, any visiting order of the hash map) accepted by the checks: valid mesh, one edge per unordered pair of end points, sibling cycles are exactly the halfedges with these end points, orientation bits right; rejects short polygons and unreferenced vertices. Hypothesis: fewer than 2^63 sides."
  },
  {
   "property": "C25",
   "status": "proved",
   "theorems": [
    "GC.Ring.C25",
    "GC.Ring.C25_add",
    "GC.Ring.C25_remove",
    "GC.Ring.C25_init",
    "GC.Ring.C25_iter",
    "GC.GMesh.C25_outgoing",
    "GC.GMesh.C25_incoming"
   ],
   "note": "Doubly linked vertex lists of the general mesh: built exactly by initializeHalfedgeNeighbors, kept exact by every history of legal insertions and removals, iteration visits exactly the members once."
  },
  {
   "property": "C26",
   "status": "proved",
   "theorems": [
    "GC.GMesh.C26",
    "GC.GMesh.C26_order",
    "GC.GMesh.C26_twice"
   ],
   "note": "invertOrientation on every valid general mesh: Valid again, cyclic order reversed, all other faces and edges unchanged, applying it twice restores the mesh up to the iteration start."
  },
  {
   "property": "C27",
   "status": "partial",
   "theorems": [
    "GC.GMesh.C27_partial",
    "GC.GMesh.C27_fails"
   ],
   "note": "Everything except the interior count is proved; the count claim is refuted for every mesh and face (getNewHalfedge(false)). Hypothesis: mesh small enough that storage growth is not refused."
  },
  {
   "property": "C28",
   "status": "proved",
   "theorems": [
    "GC.GMesh.C28",
    "GC.GMesh.C28_separate",
    "GC.GMesh.C28_noop"
   ],
   "note": "separateToNewEdge moves exactly the two halfedges; separateNonmanifoldEdges terminates on every valid general mesh with at most two halfedges per edge and unchanged faces and vertices. Hypothesis: mesh small enough that storage growth is not refused."
  },
  {
   "property": "C29",
   "status": "proved",
   "theorems": [
    "GC.GMesh.C29",
    "GC.Soup.C29_soup",
    "GC.Soup.C29_degenerate"
   ],
   "note": "greedilyOrientFaces on every valid general mesh; consistentlyOrientFaces on every polygon soup whose polygons have no side from a vertex to itself, for any unstable sort and any outcome of the ray vote. With such degenerate sides the soup version reverses faces wrongly (C29_degenerate)."
  },
  {
   "property": "C30",
   "status": "proved",
   "theorems": [
    "GC.C30_disjointSets",
    "GC.C30_markedDisjointSets"
   ],
   "note": "find/merge and the marked variant over all call sequences; ranks are unbounded naturals."
  },
  {
   "property": "C31",
   "status": "proved",
   "theorems": [
    "GC.Dep.C31",
    "GC.Dep.C31_purge",
    "GC.Dep.C31_refresh",
    "GC.Dep.unrequire_leaves_count"
   ],
   "note": "All histories of require/unrequire/refresh/purge/input changes, all acyclic dependency graphs. Evaluation functions are abstract: each first ensures its declared dependencies. An unbalanced unrequire throws and leaves the count negative (unrequire_leaves_count)."
  },
  {
   "property": "C32",
   "status": "partial",
   "theorems": [
    "GC.NC.C32_partial",
    "GC.NC.C32_consistent",
    "GC.NC.C32_degree",
    "GC.NC.C32_corner",
    "GC.NC.C32_side",
    "GC.NC.C32_flip",
    "GC.NC.C32_flip_back",
    "GC.NC.C32_fails",
    "GC.NC.C32_corner_negative"
   ],
   "note": "Degrees, sides, flip formula and flipping back proved for all consistent coordinates within int range, negative values included. Corner counts proved where at most one arc runs along the opposite side; false otherwise (C32_fails), and cornerCoord itself can be -1 (C32_corner_negative)."
  },
  {
   "property": "C33",
   "status": "proved",
   "theorems": [
    "GC.Soup.C33_merge",
    "GC.Soup.C33_stripUnused",
    "GC.Soup.C33_stripInvalidFaces",
    "GC.Soup.C33_stripDuplicateVertexFaces",
    "GC.Soup.C33_stripDuplicateFaces"
   ],
   "note": "For every soup with texture coordinates absent or aligned with the faces; std::sort is any function with its guarantee. NaN positions are not modelled."
  },
  {
   "property": "C34",
   "status": "partial",
   "theorems": [
    "GC.Obj.C34_partial",
    "GC.Obj.C34_plain",
    "GC.Obj.C34_fails"
   ],
   "note": "Round trip exact for meshes with texture coordinates on every corner; refuted for every mesh without texture coordinates that has a face with a corner (reads back as parameterized)."
  },
  {
   "property": "C35",
   "status": "partial",
   "theorems": [
    "GC.Soup.C35_partial",
    "GC.Soup.C35_fails"
   ],
   "note": "Count, corners and boundary of the fans are proved. The texture-coordinate part is refuted: triangulate leaves paramCoordinates unchanged."
  },
  {
   "property": "C36",
   "status": "partial",
   "theorems": [
    "GC.Mesh.C36_partial",
    "GC.Mesh.C36_compressed_partial",
    "GC.Mesh.C36_gap",
    "GC.Mesh.C36_fails",
    "GC.GMesh.C36_general"
   ],
   "note": "Manifold meshes: connectivity, counters and all six kinds of properties come back if the mesh has no boundary loop or no spare face slots (always so after compress), compressed or not. With boundary loops and spare slots the loaded mesh is proved invalid (C36_gap, concrete history in C36_fails). General meshes: everything comes back for every valid mesh (C36_general). Not covered: PLY encoding."
  },
  {
   "property": "C37",
   "status": "proved",
   "theorems": [
    "GC.C37_decompose",
    "GC.C37_vectors",
    "GC.C37_multiply",
    "GC.C37_verticalStack",
    "GC.C37_horizontalStack",
    "GC.C37_shiftDiagonal"
   ],
   "note": "Over every additive monoid (products: every semiring). Stored entries are a list of triplets whose values are summed per position, as setFromTriplets does."
  },
  {
   "property": "C38",
   "status": "proved",
   "theorems": [
    "GC.C38_matrix",
    "GC.C38_vector",
    "GC.C38_readback",
    "GC.C38_homomorphism"
   ],
   "note": "Over the reals and complex numbers."
  },
  {
   "property": "C39",
   "status": "partial",
   "theorems": [
    "GC.Dij.C39_partial",
    "GC.Dij.C39_radius",
    "GC.Dij.C39_general_fails"
   ],
   "note": "Proved for all valid manifold meshes, all monotone non-decreasing additions of lengths (exact or rounded), any tie-breaking: shortest path, empty only if start = end or unreachable, and exact distances within a radius. Refuted for general SurfaceMesh (twin().vertex() is not the tip)."
  },
  {
   "property": "C40",
   "status": "partial",
   "theorems": [
    "GC.C40_inSomeFace",
    "GC.C40_inFace",
    "GC.C40_inEdge_fails",
    "GC.C40_fails",
    "GC.C40_inEdge_partial",
    "GC.C40_ofHalfedge",
    "GC.C40_nearestVertex"
   ],
   "note": "Proved for inSomeFace, inFace and the halfedge constructor. Refuted for inEdge of a vertex: the two ends of the edge are exchanged (C40_fails)."
  },
  {
   "property": "C41",
   "status": "partial",
   "theorems": [
    "GC.C41_inFace",
    "GC.C41_inFace_fails",
    "GC.C41_inSomeFace",
    "GC.C41_inEdge",
    "GC.C41_add_sub",
    "GC.C41_scale",
    "GC.C41_dot",
    "GC.C41_norm",
    "GC.C41_rotate90",
    "GC.C41_rotate90_algebra",
    "GC.C41_rotate",
    "GC.C41_rotate_mesh",
    "GC.C41_between_edge",
    "GC.C41_between_mixed",
    "GC.C41_fails",
    "GC.C41_between_partial",
    "GC.C41_ofHalfedge"
   ],
   "note": "Proved over the reals: conversions, sums, scaling, inner products, norms and both rotations agree with the Euclidean vectors in every layout. Refuted: BarycentricVector(pA,pB) is negated for two points of one edge and has the wrong length for a vertex and a point of an edge; inFace accepts an edge that is not a side of the face."
  },
  {
   "property": "C42",
   "status": "proved",
   "theorems": [
    "GC.C42_vector2_complex",
    "GC.C42_vector2_rotate",
    "GC.C42_vector2_normalize",
    "GC.C42_vector2_angle",
    "GC.C42_vector2_orientedAngle",
    "GC.C42_vector3_products",
    "GC.C42_vector3_normalize",
    "GC.C42_vector3_removeComponent",
    "GC.C42_vector3_rotateAround",
    "GC.C42_vector3_rotation_laws",
    "GC.C42_vector3_angle",
    "GC.C42_vector3_tangentBasis",
    "GC.C42_vector3_angleInPlane",
    "GC.C42_quaternion_hamilton",
    "GC.C42_quaternion_laws",
    "GC.C42_quaternion_matrix",
    "GC.C42_quaternion_slerp"
   ],
   "note": "Over the reals; floating-point rounding, overflow and NaN are not modelled."
  },
  {
   "property": "C43",
   "status": "proved",
   "theorems": [
    "GC.C43_absolute",
    "GC.C43_relative"
   ],
   "note": "Over the reals, for manifold (implicit-twin) meshes."
  },
  {
   "property": "C44",
   "status": "partial",
   "theorems": [
    "GC.Mut.C44_partial",
    "GC.Mut.C44_constraints",
    "GC.Mut.C44_inherit",
    "GC.Mut.C44_pieces",
    "GC.Mut.C44_fails",
    "GC.Mut.C44_collapse_fails",
    "GC.Mut.C44_flip_mesh"
   ],
   "note": "Proved for every history with distinct policy objects: exactly the registered, not removed policies of the kind are called once before and once after, with their own data; constraints respected and inherited by both pieces. Not true of the code and refuted: removal of face split policies (undefined behaviour on the next face split), before-callback without mutation when a collapse is refused; flip callbacks see the exchanged halfedges."
  },
  {
   "property": "C45",
   "status": "partial",
   "theorems": [
    "GC.C45_fails",
    "GC.C45_defined_partial",
    "GC.C45_interpolates_partial",
    "GC.C45_derivative_partial",
    "GC.C45_C1_partial"
   ],
   "note": "Refuted as stated: length() returns the number of nodes, so value and derivative read past the last node for every t in [n-1, n] (C45_fails). Everywhere else definedness, interpolation, derivatives and C1 are proved."
  },
  {
   "property": "C46",
   "status": "proved",
   "theorems": [
    "GC.Marching.C46",
    "GC.Marching.C46_curves"
   ],
   "note": "C46 for all segment sets with indices in range (equality of nodes is equality); C46_curves for the polylines of marchingTriangles with an arbitrary orientation test."
  },
  {
   "property": "C47",
   "status": "partial",
   "theorems": [
    "GC.PC.C47_counts_partial",
    "GC.PC.C47_values_partial",
    "GC.PC.C47_fails"
   ],
   "note": "All histories of additions, deletions, compressions and container operations; refuted for adding a point at capacity 0."
  },
  {
   "property": "C48",
   "status": "partial",
   "theorems": [
    "GC.C48_seeds_partial",
    "GC.C48_fails"
   ],
   "note": "Refuted as stated: the seeds of corners A and C use lAB2 and lBC2 in exchanged places. Corner B, edge sources and vertex sources are exact; the exact condition under which A and C are right is proved."
  },
  {
   "property": "C49",
   "status": "proved",
   "theorems": [
    "GC.C49_face_halfedges",
    "GC.C49_vertex_outgoing",
    "GC.C49_vertex_incoming",
    "GC.C49_edge_interior",
    "GC.C49_prev"
   ],
   "note": "The iterator classes themselves (constructor, operator++, begin/end comparison) are modelled, including the isValid skipping of adjacentFaces."
  },
  {
   "property": "C50",
   "status": "proved",
   "theorems": [
    "GC.C50_permute"
   ],
   "note": ""
  },
  {
   "property": "C51",
   "status": "partial",
   "theorems": [
    "GC.C51_exists_genus",
    "GC.C51_genus_partial",
    "GC.C51_connected_partial",
    "GC.C51_fails"
   ],
   "note": "For every valid mesh V-E+F = 2-2g-b has exactly one integer solution g, and g >= 0 if the mesh is connected. genus() returns g exactly if the mesh is closed or a disc (b = 1, g = 0): it counts the boundary loops in the Euler characteristic and subtracts them again. C51_fails: the annulus has g = 0 and genus() = -1. Missing because false: the other meshes with boundary."
  },
  {
   "property": "C52",
   "status": "proved",
   "theorems": [
    "GC.C52_eikonal"
   ],
   "note": "Over the reals; NaN of a negative discriminant and division by a zero cosine are written out in the model."
  },
  {
   "property": "C53",
   "status": "proved",
   "theorems": [
    "GC.C53_displacementLength",
    "GC.C53_normalize",
    "GC.C53_normalizeDisplacement",
    "GC.C53_projectInside"
   ],
   "note": "Over the reals."
  },
  {
   "property": "C54",
   "status": "partial",
   "theorems": [
    "GC.Marching.C54_partial",
    "GC.Marching.C54_fails"
   ],
   "note": "Proved when no corner value equals the level; refuted when the level passes through a corner and the opposite side."
  },
  {
   "property": "C55",
   "status": "partial",
   "theorems": [
    "GC.Obj.C55_partial",
    "GC.Obj.C55_fails"
   ],
   "note": "In bounds for tokens with at most two slashes; refuted with three."
  },
  {
   "property": "C56",
   "status": "partial",
   "theorems": [
    "GC.Mut.C56_partial",
    "GC.Mut.C56_fails"
   ],
   "note": "Holds for splitEdge; refuted for collapseEdge, whose callbacks always get -1."
  },
  {
   "property": "C57",
   "status": "partial",
   "theorems": [
    "GC.Dij.C57_partial",
    "GC.Dij.C57_fails"
   ],
   "note": "Holds for shortestEdgePath; refuted for vertexDijkstraDistanceWithinRadius."
  },
  {
   "property": "C58",
   "status": "proved",
   "theorems": [
    "GC.NC.C58_step",
    "GC.NC.C58_corner"
   ],
   "note": "One step in any triangle, both directions, and the starts at corners."
  },
  {
   "property": "C59",
   "status": "partial",
   "theorems": [
    "GC.NC.C59_partial",
    "GC.NC.C59_fails"
   ],
   "note": "The result is characterised completely for up to 1024 crossings: right in the cases listed, undefined behaviour in all others, since a negative difference is computed in size_t."
  },
  {
   "property": "C60",
   "status": "partial",
   "theorems": [
    "GC.Mesh.C60_euclidean_partial",
    "GC.Mesh.C60_hyperbolic_partial",
    "GC.Mesh.C60_noop",
    "GC.Mesh.C60_boundary_throws",
    "GC.Mesh.C60_statement_fails"
   ],
   "note": "Proved for closed meshes, for every run that ends (Euclidean: nondegeneracy, convex quadrilaterals, angle sums; hyperbolic: Ptolemy lengths and score). Refuted for meshes with boundary: the code throws. Termination of the loop is not proved."
  },
  {
   "property": "C61",
   "status": "proved",
   "theorems": [
    "GC.Mesh.C61_signpost",
    "GC.Mesh.C61_flipIfPossible"
   ],
   "note": "For every run that ends (any fuel with which the loop returns); over the reals. Signpost angles are not part of the model."
  },
  {
   "property": "C62",
   "status": "partial",
   "theorems": [
    "GC.Mesh.C62_components",
    "GC.Mesh.C62_indices",
    "GC.Mesh.C62_interior",
    "GC.Mesh.C62_flags",
    "GC.GMesh.C62_general_partial",
    "GC.GMesh.C62_general_fails"
   ],
   "note": "Proved for all valid manifold meshes; nConnectedComponents of a general mesh is proved if all edges are oriented and inner, and refuted with boundary (3 components for one triangle)."
  },
  {
   "property": "C63",
   "status": "partial",
   "theorems": [
    "GC.Mesh.C63_partial",
    "GC.Mesh.C63_list",
    "GC.Mesh.C63_fails"
   ],
   "note": "Proved for all valid meshes without double edges and two-sided faces; refuted for a disk with two edges between the same vertices, which comes back closed."
  },
  {
   "property": "C64",
   "status": "proved",
   "theorems": [
    "GC.Mesh.C64_angles",
    "GC.Mesh.C64_curvature",
    "GC.Mesh.C64_gauss_bonnet",
    "GC.Mesh.C64_gauss_bonnet_closed",
    "GC.Mesh.C64_face_gauss_bonnet"
   ],
   "note": "Real lengths, triangle meshes."
  },
  {
   "property": "C65",
   "status": "proved",
   "theorems": [
    "GC.Mesh.C65_cotan",
    "GC.Mesh.C65_crouzeixRaviart"
   ],
   "note": "Real lengths, triangle meshes; not the connection Laplacians."
  },
  {
   "property": "C66",
   "status": "proved",
   "theorems": [
    "GC.Mesh.C66_dual_areas",
    "GC.Mesh.C66_vertex_mass",
    "GC.Mesh.C66_face_edge_mass",
    "GC.Mesh.C66_exterior_calculus"
   ],
   "note": "Real lengths; the inverse hodge matrices are not modelled."
  },
  {
   "property": "C67",
   "status": "proved",
   "theorems": [
    "GC.Mesh.C67_faces",
    "GC.Mesh.C67_vertices",
    "GC.Mesh.C67_holonomy",
    "GC.Mesh.C67_scales"
   ],
   "note": "Real lengths instead of doubles."
  },
  {
   "property": "C68",
   "status": "proved",
   "theorems": [
    "GC.Mesh.C68_vertex",
    "GC.Mesh.C68_face",
    "GC.Mesh.C68_edge"
   ],
   "note": "Real lengths instead of doubles; the face Laplacian needs nF <= 2^32, see DESIGN section 4."
  },
  {
   "property": "C69",
   "status": "proved",
   "theorems": [
    "GC.Mesh.C69_positions"
   ],
   "note": "Real positions instead of doubles; faces not degenerate."
  },
  {
   "property": "C70",
   "status": "proved",
   "theorems": [
    "GC.Mesh.C70_normals",
    "GC.Mesh.C70_vertex_normals",
    "GC.Mesh.C70_dihedral",
    "GC.Mesh.C70_mean_curvature",
    "GC.Mesh.C70_principal",
    "GC.Mesh.C70_face_basis",
    "GC.Mesh.C70_vertex_basis"
   ],
   "note": "Real arithmetic."
  },
  {
   "property": "C71",
   "status": "partial",
   "theorems": [
    "GC.Mesh.C71_polygon_normal_partial",
    "GC.Mesh.C71_pentagon"
   ],
   "note": "Proved for degrees three and four; false from degree five on, with a planar pentagon as witness."
  },
  {
   "property": "C72",
   "status": "proved",
   "theorems": [
    "GC.Mesh.C72_area_gradient"
   ],
   "note": "Real arithmetic. The documentation's statement is off by the factor two."
  },
  {
   "property": "C73",
   "status": "partial",
   "theorems": [
    "GC.Mesh.C73_face_index",
    "GC.Mesh.C73_vertex_index",
    "GC.Mesh.C73_half_turn"
   ],
   "note": "Proved for faces without boundary edges and for interior vertices; the sum on closed surfaces is n times the Euler characteristic minus the number of edges along which the field makes an exact half turn, and is refuted without that term. int is unbounded and real numbers are exact."
  },
  {
   "property": "C74",
   "status": "proved",
   "theorems": [
    "GC.GMesh.C74",
    "GC.GMesh.C74_boundary",
    "GC.GMesh.C74_oriented"
   ],
   "note": "All valid general meshes with 16 times the storage below the index limit; the sort around an edge may be any permutation; the values of the edge lengths are of any type."
  },
  {
   "property": "C75",
   "status": "partial",
   "theorems": [
    "GC.C75_distance2",
    "GC.C75_distance3",
    "GC.C75_rayRay",
    "GC.C75_raySegment",
    "GC.C75_segments_partial",
    "GC.C75_parallel",
    "GC.C75_tet_partial",
    "GC.C75_tet_orientation"
   ],
   "note": "Distances and rays in full. The code refutes the rest: overlapping parallel segments are not reported, and tetFourthPoint returns the negatively oriented solution."
  },
  {
   "property": "C76",
   "status": "proved",
   "theorems": [
    "GC.GMesh.C76",
    "GC.GMesh.C76_manifold",
    "GC.GMesh.C76_noop",
    "GC.GMesh.C76_throw"
   ],
   "note": "For all valid edge-manifold general meshes; storage growth below the index type is a hypothesis."
  },
  {
   "property": "C77",
   "status": "partial",
   "theorems": [
    "GC.GMesh.C77_neighbours",
    "GC.GMesh.C77_adjacent",
    "GC.GMesh.C77_degrees",
    "GC.GMesh.C77_boundary",
    "GC.GMesh.C77_connecting",
    "GC.GMesh.C77_isManifold",
    "GC.GMesh.C77_fan_partial",
    "GC.GMesh.C77_fan_refuted",
    "GC.GMesh.C77_oriented_partial",
    "GC.GMesh.C77_oriented_boundary",
    "GC.GMesh.C77_oriented_refuted"
   ],
   "note": "Iteration, degrees, boundary and connectingEdge in full. The code refutes the manifold tests: isManifold accepts a face that meets the vertex twice (C77_fan_refuted; exact for other vertices), isManifoldAndOriented rejects every boundary vertex (exact characterisation as closed fan for manifold edges without loops)."
  },
  {
   "property": "C78",
   "status": "proved",
   "theorems": [
    "GC.GMesh.C78",
    "GC.GMesh.C78_ends",
    "GC.GMesh.C78_twice",
    "GC.GMesh.C78_self_edge"
   ],
   "note": "For meshes without one-sided faces. C78_self_edge shows that preventSelfEdges looks only for an existing edge (see C03)."
  },
  {
   "property": "C79",
   "status": "partial",
   "theorems": [
    "GC.Mesh.C79",
    "GC.Mesh.C79_vertex",
    "GC.Mesh.C79_unused",
    "GC.Mesh.C79_empty",
    "GC.Mesh.C79_mismatch",
    "GC.Mesh.C79_oneSided",
    "GC.Mesh.C79_capacity"
   ],
   "note": "Proved for all matching twin lists: when the constructor throws, what it builds, and when the result is valid. Partial because the code does not check connectedness of vertices, unused vertices or the twin list itself (witnesses), and does not set the capacity of the edges."
  },
  {
   "property": "C80",
   "status": "partial",
   "theorems": [
    "GC.GMesh.C80",
    "GC.GMesh.C80_tests",
    "GC.GMesh.C80_pinch",
    "GC.GMesh.C80_sphere",
    "GC.GMesh.C80_empty"
   ],
   "note": "The tests are characterised and the conversion is described completely for valid meshes without loop edges and two-sided faces. Refuted by the code: meshes that pass both tests may make the conversion throw or return an invalid mesh."
  },
  {
   "property": "C81",
   "status": "partial",
   "theorems": [
    "GC.C81_quads",
    "GC.C81_faces",
    "GC.C81_linear",
    "GC.C81_catmullClark",
    "GC.C81_catmullClark_boundary",
    "GC.C81_catmullClark_fails",
    "GC.C81_fails"
   ],
   "note": "Proved for linearSubdivide without vertices of degree one, where it throws (C81_fails). catmullClarkSubdivide has the same connectivity on closed meshes, is undefined behaviour on every mesh with boundary and does not use the Catmull-Clark rules (refuted). compress() at the end is C19."
  },
  {
   "property": "C82",
   "status": "partial",
   "theorems": [
    "GC.C82_refine",
    "GC.C82_counts",
    "GC.C82_loop_partial",
    "GC.C82_not_triangular",
    "GC.C82_pillow",
    "GC.C82_boundary_rule"
   ],
   "note": "Proved for all valid triangle meshes without self-edges and without inner vertices of degree two: success, validity, exact connectivity of the 1-to-4 refinement, numbers of elements, all positions as computed by the code; without the condition on degree two everything but the exact connectivity. Refuted: the exact connectivity with inner vertices of degree two (a flip is refused) and the boundary rule for old vertices. Not covered: meshes with self-edges, the final compress() (see C19)."
  },
  {
   "property": "C83",
   "status": "partial",
   "theorems": [
    "GC.Mesh.C83_collapse",
    "GC.Mesh.C83_mesh",
    "GC.Mesh.C83_ends",
    "GC.Mesh.C83_exhaustive",
    "GC.Mesh.C83_quadrics",
    "GC.Mesh.C83_result_partial",
    "GC.Mesh.C83_leak",
    "GC.Mesh.C83_tetra",
    "GC.Mesh.C83_ear"
   ],
   "note": "Proved for all valid triangle meshes without double edges: every collapse and every run keeps them so, runs end, throw only at a component of two triangles, and forget no edge. Positions and costs are proved for closed meshes; at a boundary they fail (C83_ear). C83_tetra shows the exception. The final compress() is not included (see C19)."
  },
  {
   "property": "C84",
   "status": "partial",
   "theorems": [
    "GC.Mesh.C84_partial",
    "GC.Mesh.C84_one_tree",
    "GC.Mesh.C84_no_leaf",
    "GC.Mesh.C84_corners",
    "GC.Mesh.C84_second_tree_left",
    "GC.Mesh.C84_wrong_count",
    "GC.Mesh.C84_fails",
    "GC.Mesh.C84_old_boundary",
    "GC.Mesh.C84_gaps",
    "GC.Mesh.C84_boundary_order"
   ],
   "note": "Proved for one tree of edges without boundary vertices on triangle meshes without gaps in the storage, up to the wrong count of interior halfedges; the full statement C84_statement is refuted (C84_fails). Missing: trees with one vertex on the boundary, where the code works or throws depending on indices (C84_boundary_order)."
  },
  {
   "property": "C85",
   "status": "partial",
   "theorems": [
    "GC.Mesh.C85_laplacian",
    "GC.Mesh.C85_cotan",
    "GC.Mesh.C85_gradient_partial",
    "GC.Mesh.C85_linear_partial",
    "GC.Mesh.C85_dec",
    "GC.Mesh.C85_pentagon",
    "GC.Mesh.C85_hodge1_not_diagonal"
   ],
   "note": "Laplacian, triangle meshes and exterior calculus for all meshes with faces of positive area. The gradient has the wrong sign; this and the energy of linear functions are proved for degree three and four, and refuted for a planar pentagon whose stored normal points the wrong way."
  },
  {
   "property": "C86",
   "status": "partial",
   "theorems": [
    "GC.Mesh.C86_laplacian",
    "GC.Mesh.C86_mass",
    "GC.Mesh.C86_cotan",
    "GC.Mesh.C86_tiny",
    "GC.Mesh.C86_small",
    "GC.Poly.virtualVertex_spec",
    "GC.Poly.virtualVertex_tri"
   ],
   "note": "Proved for every valid mesh and every solver of solvable systems. Kernel, linear functions and the cotangent case need triangles above the absolute threshold 1e-7; below it the Laplacian of a triangle mesh is zero (C86_tiny, C86_small)."
  },
  {
   "property": "C87",
   "status": "partial",
   "theorems": [
    "GC.Mesh.C87_hermitian",
    "GC.Mesh.C87_connection",
    "GC.Mesh.C87_flat",
    "GC.Mesh.C87_throws",
    "GC.Mesh.C87_triangle_partial"
   ],
   "note": "Hermitian, form, semidefiniteness and kernel for all oriented orthonormal bases; on meshes with other faces than triangles the code throws; on triangle meshes the bases of the code are orthonormal, but the vertex bases are normal to vertexNormals, not to the polygonVertexNormals used to turn them"
  },
  {
   "property": "C88",
   "status": "partial",
   "theorems": [
    "GC.Stl.C88_ascii",
    "GC.Stl.C88_ascii_sound",
    "GC.Stl.C88_ascii_short",
    "GC.Stl.C88_binary",
    "GC.Stl.C88_binary_sound",
    "GC.Stl.C88_solid",
    "GC.Stl.C88_oriented",
    "GC.Stl.C88_exact",
    "GC.Stl.C88_off",
    "GC.Stl.C88_off_sound",
    "GC.Stl.C88_off_short",
    "GC.Stl.C88_off_count"
   ],
   "note": "Proved for all well-formed files, and soundness for all STL and OFF files that are read. Partial because the code violates it: short facets, truncated binary files, short face or count lines make it use values that were never read, and binary files that begin with 'solid' are read as text (proved negations). The orientation is proved for tests that tell a triangle from its reverse, which holds for the exact test; rounding is not modelled."
  },
  {
   "property": "C89",
   "status": "partial",
   "theorems": [
    "GC.Mesh.C89_heat",
    "GC.Mesh.C89_extend_partial",
    "GC.Mesh.C89_extend_gap",
    "GC.Mesh.C89_distance",
    "GC.Mesh.C89_normal",
    "GC.Mesh.C89_source",
    "GC.Mesh.C89_average",
    "GC.Mesh.C89_signed",
    "GC.Mesh.C89_vector_throws"
   ],
   "note": "Extension of scalars only for sources whose index is below the number of vertices; for others it is false (C89_extend_gap). The distance is shown where the heat flow is linear on each face."
  },
  {
   "property": "C90",
   "status": "proved",
   "theorems": [
    "GC.Mesh.C90_zero_set",
    "GC.Mesh.C90_multiple",
    "GC.Mesh.C90_multiple_singular",
    "GC.Mesh.C90_faces"
   ],
   "note": "Over exact reals and exact solvers. C90_multiple_singular records that the system of the constraint Multiple is singular, so that an exact solver here means one that solves consistent singular systems."
  },
  {
   "property": "C91",
   "status": "partial",
   "theorems": [
    "GC.Mesh.C91_operators",
    "GC.Mesh.C91_divergence",
    "GC.Mesh.C91_recover_partial",
    "GC.C91_baryDist",
    "GC.Mesh.C91_source",
    "GC.Mesh.C91_face_source"
   ],
   "note": "Exact recovery fails because of the shift of the Laplacian by 1e-6 (shown in C91_recover_partial, with a bound on the error); the heat need not have the form assumed there. useRobustLaplacian is not modelled."
  },
  {
   "property": "C92",
   "status": "partial",
   "theorems": [
    "GC.Mesh.C92_neumann",
    "GC.Mesh.C92_dirichlet",
    "GC.Mesh.C92_boundary",
    "GC.Mesh.C92_interior"
   ],
   "note": "The angles computed from scale factors are those of the negated scale factors (shown as a defect); the scale factors from angles, the closed boundary polygon with least change of lengths, and the harmonic interior are proved. Floating point, the factorisation of the singular matrix and embeddedness are not covered."
  },
  {
   "property": "C93",
   "status": "proved",
   "theorems": [
    "GC.Mesh.C93_scalar",
    "GC.Mesh.C93_scalar_system",
    "GC.Mesh.C93_operator",
    "GC.Mesh.C93_lengths",
    "GC.Mesh.C93_vector_system",
    "GC.Mesh.C93_rotation",
    "GC.Mesh.C93_parallel"
   ],
   "note": "Exact arithmetic; the solvers are parameters that solve every solvable system. Nonnegative cotangent weights are assumed, as the maximum principle fails without them. The result is not a number where the vector solution is exactly zero; C93_parallel shows that this does not happen for multiples of a parallel field."
  },
  {
   "property": "C94",
   "status": "proved",
   "theorems": [
    "GC.Mesh.C94_conformal",
    "GC.Mesh.C94_lengths",
    "GC.Mesh.C94_step",
    "GC.Mesh.C94_linear",
    "GC.Mesh.C94_flat"
   ],
   "note": "Exact arithmetic; the solver is a parameter; withEdgeFlips = false. Not claimed: withEdgeFlips = true, the triangle inequality after a pass, and convergence of the fifty passes."
  },
  {
   "property": "C95",
   "status": "proved",
   "theorems": [
    "GC.C95_crossings",
    "GC.C95_reverse",
    "GC.C95_endpoint",
    "GC.C95_match",
    "GC.C95_face",
    "GC.C95_planar"
   ],
   "note": "Exact arithmetic, integers without overflow. The polylines that extractCrossingsFromStripePattern builds from the lists are not modelled."
  },
  {
   "property": "C96",
   "status": "partial",
   "theorems": [
    "GC.C96_singular_partial",
    "GC.C96_fails"
   ],
   "note": "Proved for stripe indices up to two. False for larger indices: C96_fails is a face of index three at which matchCrossings reads out of range."
  },
  {
   "property": "C97",
   "status": "proved",
   "theorems": [
    "GC.Mesh.C97_energy"
   ],
   "note": "Exact arithmetic. The one-form and the sheet flags of computeOmega are arguments."
  }
 ]
}