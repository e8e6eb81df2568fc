{"id": "C01", "title": "Edge flip keeps the mesh a valid manifold halfedge mesh", "statement": "Calling flip(e) on a valid manifold mesh leaves a valid manifold mesh: every he.next/twin/vertex/face reference is live, the halfedges of each face form exactly one next-cycle, the halfedges leaving each vertex form exactly one twin-next cycle, the boundary conventions hold, and every element count is unchanged.", "quantifier": "every valid manifold mesh of any size (including delta-complexes with self-edges), every edge of it, both values of preventSelfEdges", "why_tests_cant": "The space of connectivities is infinite and the interesting failures sit in degenerate neighbourhoods (self-edges, faces glued to themselves, degree-2 vertices) that no finite suite enumerates.", "anchors": ["src/surface/surface_mesh.cpp: SurfaceMesh::flip", "include/geometrycentral/surface/halfedge_logic_templates.ipp"]}
{"id": "C02", "title": "Edge flip changes exactly the diagonal, is refused without effect, and has order four", "statement": "If flip(e) returns false the connectivity is untouched. If it returns true, only the endpoints of e change: they become the two vertices opposite e, the other four sides of the two triangles keep their endpoints; flipping the same edge four times restores every reference of the halfedges, and flipping it twice restores the original surface with the two halfedges of e exchanged (so a second flip is not an exact undo).", "quantifier": "every valid manifold mesh and every edge", "why_tests_cant": "Frame conditions (nothing else changed) and group identities range over all meshes.", "anchors": ["src/surface/surface_mesh.cpp: SurfaceMesh::flip", "src/surface/mutation_manager.cpp: MutationManager::flipEdge"]}
{"id": "C03", "title": "preventSelfEdges keeps flip from making a self-edge", "statement": "With preventSelfEdges = true (the default) a flip never results in an edge whose two endpoints are the same vertex, as documented in mutation.md.", "quantifier": "every valid manifold mesh and every edge", "why_tests_cant": "A universally quantified safety statement; the violating configuration (two triangles whose opposite corners are already the same vertex) is rare in test meshes.", "anchors": ["src/surface/surface_mesh.cpp: SurfaceMesh::flip", "docs/docs/surface/surface_mesh/mutation.md: flip"]}
{"id": "C04", "title": "insertVertexAlongEdge splits an edge in two and keeps the mesh valid", "statement": "insertVertexAlongEdge(e) on a valid manifold mesh yields a valid manifold mesh with one more vertex and one more edge; the new vertex has degree 2, the two adjacent faces gain exactly one side, and the returned halfedge starts at the new vertex and points along the original e.halfedge().", "quantifier": "every valid manifold mesh, every edge, interior or boundary", "why_tests_cant": "Needs all local configurations and all mesh sizes, including array growth at arbitrary capacity.", "anchors": ["src/surface/manifold_surface_mesh.cpp: ManifoldSurfaceMesh::insertVertexAlongEdge", "src/surface/surface_mesh.cpp: getNewVertex, getNewEdgeTriple"]}
{"id": "C05", "title": "connectVertices splits one face in two and keeps the mesh valid", "statement": "For two non-adjacent distinct halfedges of the same interior face, connectVertices(heA, heB) yields a valid manifold mesh with one more edge and one more face; the returned halfedge runs from heA.vertex() to heB.vertex(), its twin lies in the new face, and no vertex or other face is affected.", "quantifier": "every valid manifold mesh, every face of any degree, every admissible pair of corners, any amount of spare capacity", "why_tests_cant": "The face degree is unbounded and the storage may be re-allocated (moving all boundary loops) in the middle of the operation.", "anchors": ["src/surface/manifold_surface_mesh.cpp: ManifoldSurfaceMesh::connectVertices", "src/surface/surface_mesh.cpp: getNewFace, expandFaceStorage"]}
{"id": "C06", "title": "insertVertex(face) replaces a d-gon by a fan of d triangles and keeps the mesh valid", "statement": "insertVertex(f) yields a valid manifold mesh with one more vertex, d more edges and d-1 more faces, where d is the degree of f; the new vertex has degree d and every new face is a triangle containing it.", "quantifier": "every valid manifold mesh and every interior face of any degree", "why_tests_cant": "Unbounded face degree; loop-constructed connectivity.", "anchors": ["src/surface/manifold_surface_mesh.cpp: ManifoldSurfaceMesh::insertVertex"]}
{"id": "C07", "title": "splitEdgeTriangular refines the one or two triangles at an edge and keeps the mesh valid", "statement": "On an edge whose adjacent interior faces are triangles, splitEdgeTriangular(e) yields a valid manifold mesh whose new vertex has degree 4 (3 on the boundary), with the returned halfedge leaving the new vertex along e's direction.", "quantifier": "every valid manifold mesh and every edge with triangular neighbours", "why_tests_cant": "Composition of mutations over all local configurations, including both triangles being glued along several edges.", "anchors": ["src/surface/manifold_surface_mesh.cpp: ManifoldSurfaceMesh::splitEdgeTriangular"]}
{"id": "C08", "title": "triangulate(face) cuts a d-gon into d-2 triangles and keeps the mesh valid", "statement": "triangulate(f) yields a valid manifold mesh, returns exactly d-2 distinct faces (1 for a triangle), all of them triangles, one of them f itself, and adds d-3 edges and no vertices.", "quantifier": "every valid manifold mesh and every interior face of degree at least 3", "why_tests_cant": "Unbounded degree; iterated mutation with handles kept across storage growth.", "anchors": ["src/surface/manifold_surface_mesh.cpp: ManifoldSurfaceMesh::triangulate"]}
{"id": "C09", "title": "removeEdge merges two faces and keeps the mesh valid", "statement": "removeEdge(e) either returns the null face and leaves the mesh as it was, or yields a valid manifold mesh with one edge and one face fewer in which the two incident faces have been merged; it undoes connectVertices.", "quantifier": "every valid manifold mesh and every interior edge", "why_tests_cant": "All degenerate incidences of e on its own neighbourhood must be covered.", "anchors": ["src/surface/manifold_surface_mesh.cpp: ManifoldSurfaceMesh::removeEdge", "src/surface/surface_mesh.cpp: deleteEdgeBundle, deleteElement"]}
{"id": "C10", "title": "removeVertex leaves one face in place of the vertex star and a valid mesh", "statement": "removeVertex(v) on an interior vertex either refuses without changing the mesh or yields a valid manifold mesh with v, its d edges and d-1 faces removed and the outer ring bounding the remaining face.", "quantifier": "every valid manifold mesh and interior vertex of any degree", "why_tests_cant": "Unbounded degree with loop-rebuilt connectivity.", "anchors": ["src/surface/manifold_surface_mesh.cpp: ManifoldSurfaceMesh::removeVertex"]}
{"id": "C11", "title": "separateEdge opens a boundary along an edge and leaves all counts right", "statement": "separateEdge(e), where it is implemented, yields a valid manifold mesh in which e has become two boundary edges, and nInteriorHalfedges()/nCorners() equal the number of interior halfedges.", "quantifier": "every valid manifold mesh and interior edge with at most one boundary endpoint", "why_tests_cant": "The count is only wrong as a global invariant; no local observation in a test shows it unless the test re-counts.", "anchors": ["src/surface/manifold_surface_mesh.cpp: ManifoldSurfaceMesh::separateEdge", "src/surface/surface_mesh.cpp: getNewEdgeTriple, getNewBoundaryLoop"]}
{"id": "C12", "title": "Switching the two halfedges of an edge only renames them", "statement": "switchHalfedgeSides(e) exchanges the roles of the two halfedges of e: the result is the mesh obtained by renaming he <-> he.twin(), it stays structurally valid, and applying it twice is the identity.", "quantifier": "every valid manifold mesh and every edge", "why_tests_cant": "Holds for every neighbourhood or not at all; the degree-1 endpoint case breaks it.", "anchors": ["src/surface/manifold_surface_mesh.cpp: ManifoldSurfaceMesh::switchHalfedgeSides, ensureEdgeHasInteriorHalfedge"]}
{"id": "C13", "title": "collapseEdgeTriangular removes one vertex and keeps the mesh valid", "statement": "When collapseEdgeTriangular(e) returns a vertex, the mesh is again a valid manifold mesh with one vertex fewer, three (interior) or two (boundary) edges fewer and two or one faces fewer; when it returns the null vertex nothing changed.", "quantifier": "every valid triangle mesh and every edge", "why_tests_cant": "Case-heavy surgery; validity is a global property over all neighbourhoods.", "anchors": ["src/surface/manifold_surface_mesh.cpp: ManifoldSurfaceMesh::collapseEdgeTriangular"]}
{"id": "C14", "title": "removeFaceAlongBoundary keeps counts and manifoldness", "statement": "When removeFaceAlongBoundary(f) returns true, the mesh is a valid manifold mesh with that face gone and nInteriorHalfedges() equal to the number of halfedges in interior faces.", "quantifier": "every valid manifold mesh with boundary and every face with one boundary edge", "why_tests_cant": "Global count and polygon faces of arbitrary degree.", "anchors": ["src/surface/manifold_surface_mesh.cpp: ManifoldSurfaceMesh::removeFaceAlongBoundary, ensureVertexHasBoundaryHalfedge"]}
{"id": "C15", "title": "Any history of mutations keeps a valid mesh of constant Euler characteristic", "statement": "Starting from any valid manifold mesh, after any sequence of flip, insertVertexAlongEdge, connectVertices, insertVertex, splitEdgeTriangular, triangulate, removeEdge (successful or refused, in any order, on any elements) the mesh is valid and eulerCharacteristic() has not changed.", "quantifier": "all finite operation histories from all valid meshes", "why_tests_cant": "Histories are unbounded.", "anchors": ["src/surface/manifold_surface_mesh.cpp: mutation section, eulerCharacteristic", "src/surface/surface_mesh.cpp: flip"]}
{"id": "C16", "title": "Element counts and ranges agree with what exists", "statement": "nVertices(), nEdges(), nFaces(), nHalfedges(), nBoundaryLoops() always equal the number of elements the corresponding range (mesh.vertices() etc.) yields, and each range yields every existing element exactly once in increasing index order and no deleted element.", "quantifier": "all histories of insertions and deletions, all patterns of deleted slots", "why_tests_cant": "Depends on arbitrary interleavings of holes in the index space.", "anchors": ["include/geometrycentral/utilities/element_iterators.ipp: RangeSetBase/RangeIteratorBase", "src/surface/surface_mesh.cpp: deleteElement, getNew*"]}
{"id": "C17", "title": "Mesh containers stay attached to their elements through any history", "statement": "A VertexData/EdgeData/FaceData/HalfedgeData value assigned to an element is still the value read at that element after any sequence of insertions (with storage growth), deletions of other elements and compress(); elements created later start at the container's default value.", "quantifier": "all histories of allocate/delete/compress/assign, any container created at any point of the history", "why_tests_cant": "Unbounded histories; the value silently goes to the wrong element if one callback is wrong.", "anchors": ["include/geometrycentral/utilities/mesh_data.ipp: registerWithMesh callbacks", "src/surface/surface_mesh.cpp: compress*, getNew*"]}
{"id": "C18", "title": "BoundaryLoopData follows its boundary loop through compress()", "statement": "A value stored in BoundaryLoopData at a boundary loop is read at the same boundary loop after compress().", "quantifier": "all meshes, any number of boundary loops, any pattern of deletions", "why_tests_cant": "Only meshes with at least two boundary loops that were made non-compressed show it; the claim is for all.", "anchors": ["src/surface/surface_mesh.cpp: compressFaces", "include/geometrycentral/utilities/mesh_data.ipp"]}
{"id": "C19", "title": "compress() renumbers and changes nothing else", "statement": "After compress() the index space of every element type is dense (0..n-1), existing elements keep their relative order, and every reference (next, twin, vertex, face, edge, v.halfedge, f.halfedge) is the renumbered old reference: the mesh is isomorphic to the one before. On a compressed mesh it does nothing.", "quantifier": "every mesh with any pattern of deleted slots", "why_tests_cant": "All deletion patterns, all sizes.", "anchors": ["src/surface/surface_mesh.cpp: compressHalfedges, compressEdges, compressFaces, compressVertices, compress"]}
{"id": "C20", "title": "Growing the face storage moves boundary loops without losing them", "statement": "Adding faces or boundary loops never makes a halfedge point to another face or loop: when the face array is re-allocated, boundary loops keep their identity, their halfedge, and no face index collides with a boundary-loop slot.", "quantifier": "all meshes and all interleavings of face and boundary-loop creation and deletion", "why_tests_cant": "The two regions grow towards one another; collision depends on the full history of creations and deletions.", "anchors": ["src/surface/surface_mesh.cpp: getNewFace, getNewBoundaryLoop, expandFaceStorage, boundaryLoopIndToFaceInd"]}
{"id": "C21", "title": "Elements can be added to an empty mesh or cloud", "statement": "Creating a vertex, a face or a point always returns an element whose storage slot exists, also when the mesh or cloud was empty.", "quantifier": "all capacities including zero", "why_tests_cant": "The failure is an out-of-bounds write that only happens from capacity 0 and may go unnoticed at runtime.", "anchors": ["src/surface/surface_mesh.cpp: getNewVertex, expandFaceStorage", "src/pointcloud/point_cloud.cpp: getNewPoint"]}
{"id": "C22", "title": "The manifold polygon constructor represents exactly the given faces", "statement": "If the ManifoldSurfaceMesh constructor accepts a polygon list, then the resulting mesh is valid, face i has exactly the given vertices in the given cyclic order, every edge of the mesh is a side of the input, and the boundary loops bound exactly the unmatched sides.", "quantifier": "all polygon lists", "why_tests_cant": "Infinite input space; acceptance must imply validity for all of it.", "anchors": ["src/surface/manifold_surface_mesh.cpp: ManifoldSurfaceMesh(polygons)"]}
{"id": "C23", "title": "The manifold polygon constructor rejects inputs that are not oriented-manifold", "statement": "If some directed side occurs twice, or a face has fewer than three sides, or a face repeats a vertex consecutively, or a vertex is unreferenced, or a vertex neighbourhood has several components, the constructor throws instead of building a mesh.", "quantifier": "all polygon lists", "why_tests_cant": "Infinite input space.", "anchors": ["src/surface/manifold_surface_mesh.cpp: ManifoldSurfaceMesh(polygons)"]}
{"id": "C24", "title": "The general constructor groups halfedges into edges by endpoints", "statement": "SurfaceMesh(polygons) creates, for every unordered pair of vertices that is a side of some polygon, exactly one edge; the sibling cycle of a halfedge visits exactly the halfedges with the same endpoints, once each; and he.orientation() tells whether the halfedge runs like e.halfedge().", "quantifier": "all polygon lists, manifold or not", "why_tests_cant": "Edge multiplicity is unbounded.", "anchors": ["src/surface/surface_mesh.cpp: SurfaceMesh(polygons)"]}
{"id": "C25", "title": "Vertex adjacency lists of a general mesh stay exact", "statement": "On a general SurfaceMesh, iterating the outgoing (incoming) halfedges of a vertex yields exactly the halfedges whose tail (tip) is that vertex, once each, after any sequence of list insertions and removals.", "quantifier": "all states of the doubly linked lists and all histories of addToVertexLists/removeFromVertexLists", "why_tests_cant": "Pointer-list invariants over unbounded histories.", "anchors": ["src/surface/surface_mesh.cpp: initializeHalfedgeNeighbors, addToVertexLists, removeFromVertexLists"]}
{"id": "C26", "title": "invertOrientation reverses a face and nothing else", "statement": "invertOrientation(f) reverses the cyclic vertex order of f, flips the orientation bit of its halfedges, keeps each halfedge on the same edge and face, and applying it twice restores the connectivity.", "quantifier": "every general surface mesh and every face of any degree", "why_tests_cant": "Unbounded degree, in-place pointer reversal.", "anchors": ["src/surface/surface_mesh.cpp: invertOrientation"]}
{"id": "C27", "title": "duplicateFace makes a coincident face and keeps the counts right", "statement": "duplicateFace(f) adds a face with the same vertices in the same order, each new halfedge joining the sibling cycle of its original, and nInteriorHalfedges()/nCorners() grow by the degree of f.", "quantifier": "every general surface mesh and every face", "why_tests_cant": "Global count invariant; unbounded degree.", "anchors": ["src/surface/surface_mesh.cpp: duplicateFace, getNewHalfedge"]}
{"id": "C28", "title": "Separating non-manifold edges yields an edge-manifold mesh", "statement": "separateToNewEdge moves exactly two halfedges to a new edge and leaves the others on the old one; separateNonmanifoldEdges terminates with every edge incident on at most two halfedges and changes no face.", "quantifier": "every general surface mesh, any edge multiplicity", "why_tests_cant": "Unbounded multiplicity and loop termination.", "anchors": ["src/surface/surface_mesh.cpp: separateToNewEdge, removeFromSiblingList, separateNonmanifoldEdges"]}
{"id": "C29", "title": "Greedy orientation makes every orientable component consistently oriented", "statement": "If the faces of a mesh can be oriented consistently across manifold edges, then after greedilyOrientFaces() / consistentlyOrientFaces() every manifold interior edge is traversed in opposite directions by its two faces.", "quantifier": "all polygon meshes with an orientable face-adjacency graph, any size", "why_tests_cant": "Graph-traversal correctness over all graphs and all traversal orders.", "anchors": ["src/surface/surface_mesh.cpp: greedilyOrientFaces", "src/surface/simple_polygon_mesh.cpp: consistentlyOrientFaces"]}
{"id": "C30", "title": "DisjointSets computes exactly the equivalence closure of the merges", "statement": "After any sequence of merge and find calls, find(a) == find(b) iff a and b are connected by the merged pairs; find never changes this relation and always terminates.", "quantifier": "all sizes, all sequences of merge/find", "why_tests_cant": "Unbounded histories; path compression and union by rank interact.", "anchors": ["include/geometrycentral/utilities/disjoint_sets.h", "src/utilities/disjoint_sets.cpp"]}
{"id": "C31", "title": "Cached geometric quantities are present and fresh while required", "statement": "After any sequence of require/unrequire/refresh/purge calls, a quantity whose requires outnumber its unrequires is computed from the current inputs since the last refresh; purge drops only quantities nobody requires, and a refresh recomputes each computed quantity exactly once in dependency order.", "quantifier": "all call histories and all acyclic dependency graphs", "why_tests_cant": "Unbounded histories of interleaved calls.", "anchors": ["include/geometrycentral/utilities/dependent_quantity.h/.ipp", "src/surface/base_geometry_interface.cpp: refreshQuantities, purgeQuantities"]}
{"id": "C32", "title": "Normal coordinates: flip formula and corner counts", "statement": "For normal coordinates satisfying the triangle consistency conditions, corner coordinates are nonnegative, the crossings of a triangle side equal the two adjacent corner counts plus emanating arcs, and the flip formula counts exactly the arcs crossing the other diagonal; flipping back restores the value.", "quantifier": "all integer edge coordinates of two adjacent triangles, including negative (shared-edge) values", "why_tests_cant": "Integer case analysis over an infinite domain with sign and parity corner cases.", "anchors": ["src/surface/normal_coordinates.cpp"]}
{"id": "C33", "title": "Polygon-soup clean-up preserves the geometry of every face", "statement": "mergeIdenticalVertices and stripUnusedVertices keep, for every face and corner, the vertex position; afterwards no two vertices coincide / no vertex is unused; stripping invalid or duplicate faces keeps exactly the faces it should.", "quantifier": "all polygon soups", "why_tests_cant": "Infinite input space, index remapping.", "anchors": ["src/surface/simple_polygon_mesh.cpp: mergeIdenticalVertices, stripUnusedVertices, stripFacesWithDuplicateVertices, stripInvalidFaces, stripDuplicateFaces"]}
{"id": "C34", "title": "Reading back a written OBJ mesh gives the same polygons and texture coordinates", "statement": "Writing a polygon mesh and reading it again yields the same faces and, if and only if the mesh had them, the same per-corner texture coordinates; a file without texture coordinates yields a mesh for which hasParameterization() is false.", "quantifier": "all meshes", "why_tests_cant": "Infinite input space; tests only check chosen files.", "anchors": ["src/surface/simple_polygon_mesh.cpp: readMeshFromObjFile, parseFaceIndex, writeMeshObj"]}
{"id": "C35", "title": "SimplePolygonMesh::triangulate covers each polygon with a fan", "statement": "triangulate() replaces every polygon of degree d by d-2 triangles whose boundary is the polygon, and keeps per-corner texture coordinates aligned with the corners.", "quantifier": "all polygon soups", "why_tests_cant": "Infinite input space.", "anchors": ["src/surface/simple_polygon_mesh.cpp: triangulate"]}
{"id": "C36", "title": "RichSurfaceMeshData round trip restores the mesh", "statement": "Writing the connectivity and per-element properties of a mesh and loading them back gives a mesh with identical connectivity and properties, compressed or not.", "quantifier": "all valid meshes, compressed or not, any spare capacity", "why_tests_cant": "Failure depends on the capacity history of the arrays.", "anchors": ["src/surface/rich_surface_mesh_data.cpp", "include/geometrycentral/surface/rich_surface_mesh_data.ipp", "src/surface/manifold_surface_mesh.cpp: from-arrays constructor"]}
{"id": "C37", "title": "Block decomposition splits a matrix and vectors losslessly", "statement": "blockDecomposeSquare puts every entry of the matrix in exactly the block of its row and column class; decomposeVector followed by reassembleVector is the identity; multiplying block-wise and reassembling equals multiplying the original matrix.", "quantifier": "all sizes, all membership masks, all matrices and vectors", "why_tests_cant": "Infinite input space.", "anchors": ["include/geometrycentral/numerical/linear_algebra_utilities.ipp: blockDecomposeSquare, decomposeVector, reassembleVector, verticalStack, horizontalStack"]}
{"id": "C38", "title": "Complex-to-real lifting is a homomorphism", "statement": "complexToReal(A) * complexToReal(x) = complexToReal(A x) for every complex matrix and vector, and realToComplex-style readback restores the entries.", "quantifier": "all sizes and entries", "why_tests_cant": "Infinite input space; solver correctness for complex systems rests on it.", "anchors": ["src/numerical/linear_algebra_utilities.cpp: complexToReal"]}
{"id": "C39", "title": "shortestEdgePath returns a shortest path", "statement": "shortestEdgePath(start, end) returns a chain of halfedges from start to end whose total length is minimal among all edge paths, and returns an empty path only if start = end or end is unreachable.", "quantifier": "all meshes/graphs with nonnegative edge lengths, all vertex pairs, any tie-breaking of the priority queue", "why_tests_cant": "Optimality over all paths in all graphs.", "anchors": ["src/surface/mesh_graph_algorithms.cpp: shortestEdgePath, vertexDijkstraDistanceWithinRadius"]}
{"id": "C40", "title": "Converting a SurfacePoint keeps the point it denotes", "statement": "inSomeFace(), inFace(f) and inEdge(e) return another description of the same point: interpolating any per-vertex data gives the same value.", "quantifier": "all surface points (vertex, edge, face type) on all meshes, all vertex data", "why_tests_cant": "Infinite domain; the wrong branch gives plausible-looking values.", "anchors": ["include/geometrycentral/surface/surface_point.ipp: inSomeFace, inFace, inEdge, interpolate"]}
{"id": "C41", "title": "BarycentricVector algebra is the tangent-vector algebra", "statement": "Barycentric displacement vectors add, scale, take inner products and norms like the Euclidean vectors they denote; rotate90 is an isometry, orthogonal to its argument and squares to minus the identity; the vector from pA to pB is the displacement from pA to pB.", "quantifier": "all triangles with positive edge lengths and area, all barycentric coordinates and element types", "why_tests_cant": "Real-algebraic identities over an infinite domain.", "anchors": ["src/surface/barycentric_vector.cpp", "include/geometrycentral/surface/barycentric_vector.ipp"]}
{"id": "C42", "title": "Vector and quaternion algebra", "statement": "Quaternion multiplication is associative with multiplicative norm and inverse; its matrix form is left multiplication; Vector2 multiplication is complex multiplication, rotate90 is multiplication by i, and rotate agrees with the documented direction; Vector3 cross/rotateAround/removeComponent satisfy their geometric laws.", "quantifier": "all real coordinates", "why_tests_cant": "Algebraic identities over a continuum.", "anchors": ["src/utilities/quaternion.cpp", "include/geometrycentral/utilities/vector2.ipp", "include/geometrycentral/utilities/vector3.ipp"]}
{"id": "C43", "title": "Intrinsic mollification makes every triangle nondegenerate", "statement": "After mollifyIntrinsic every triangle corner satisfies the triangle inequality with slack at least the requested absolute amount, no edge gets shorter, every edge grows by the same amount, and a mesh that already satisfies it is unchanged.", "quantifier": "all triangle meshes and all positive edge lengths", "why_tests_cant": "Inequality over a continuum and all meshes.", "anchors": ["src/surface/intrinsic_mollification.cpp"]}
{"id": "C44", "title": "MutationManager callbacks fire exactly once around each mutation and can be removed", "statement": "Every registered policy's before-callback runs before and its after-callback after each mutation of its kind with the data its own before-callback produced; after removePolicy no callback of the removed policy runs; constrained edges are never flipped, split or collapsed and constraints are inherited by the pieces of a split.", "quantifier": "all histories of policy registration, removal and mutation", "why_tests_cant": "Unbounded histories; a stale pointer is undefined behaviour rather than a visible wrong value.", "anchors": ["src/surface/mutation_manager.cpp", "include/geometrycentral/surface/mutation_manager.ipp"]}
{"id": "C45", "title": "HermiteCurve evaluation is defined on its whole parameter range and interpolates", "statement": "For every t in [0, length()] HermiteCurve::value(t) reads only existing nodes; at integer parameters it passes through the nodes with the given tangents.", "quantifier": "all numbers of nodes and all t", "why_tests_cant": "Continuum of parameters; an out-of-bounds read is undefined behaviour.", "anchors": ["include/geometrycentral/utilities/curve.ipp"]}
{"id": "C46", "title": "Curve components are chains containing every segment exactly once", "statement": "getCurveComponents returns chains of consecutively connected segments; together they contain every input segment exactly once.", "quantifier": "all segment sets", "why_tests_cant": "Infinite input space; traversal termination.", "anchors": ["src/surface/marching_triangles.cpp: getCurveComponents"]}
{"id": "C47", "title": "Point clouds: points and per-point data survive any history", "statement": "Per-point data stays with its point through addition, deletion and compress(), and nPoints() equals the number of points iterated.", "quantifier": "all histories", "why_tests_cant": "Unbounded histories.", "anchors": ["src/pointcloud/point_cloud.cpp", "include/geometrycentral/pointcloud/point_cloud.ipp"]}
{"id": "C48", "title": "Fast marching from a point inside a face starts from true distances", "statement": "For a source inside a face with barycentric coordinates (u,v,w), the initial distances assigned to the three corners are the Euclidean distances from the source to the corners in the flattened triangle.", "quantifier": "all nondegenerate triangles and all barycentric coordinates", "why_tests_cant": "Continuum of inputs; errors stay small for nearly equilateral triangles.", "anchors": ["src/surface/fast_marching_method.cpp: FMMDistance"]}
{"id": "C49", "title": "Face and vertex loops visit each neighbour exactly once", "statement": "f.adjacentHalfedges()/adjacentVertices() and v.outgoingHalfedges()/incomingHalfedges() on a valid manifold mesh terminate and yield exactly the halfedges of that face (leaving/entering that vertex), each once, starting at f.halfedge() / v.halfedge(); f.degree() and v.degree() are the number of sides / edge-ends.", "quantifier": "every valid manifold mesh, every face and vertex, unbounded degree", "why_tests_cant": "Termination and completeness for every connectivity.", "anchors": ["include/geometrycentral/utilities/element_iterators.ipp: NavigationIteratorBase", "include/geometrycentral/surface/halfedge_element_types.ipp"]}
{"id": "C50", "title": "Barycentric coordinate permutation round trip", "statement": "permuteBarycentricToCanonical and permuteBarycentricFromCanonical are mutually inverse and denote the same point of the face, whichever halfedge of the triangle is used as reference.", "quantifier": "all triangles, all three reference halfedges, all coordinates", "why_tests_cant": "Small finite case split times continuum of coordinates.", "anchors": ["include/geometrycentral/surface/barycentric_coordinate_helpers.ipp"]}
{"id": "C51", "title": "genus() is the genus of the closed-up surface", "statement": "For a connected mesh, genus() is the integer g with V - E + F = 2 - 2g - b, where b is the number of boundary loops.", "quantifier": "all valid connected meshes, with and without boundary", "why_tests_cant": "Tests call genus() on a few closed models; the formula has to hold for every number of boundary loops.", "anchors": ["src/surface/manifold_surface_mesh.cpp: eulerCharacteristic, genus"]}
{"id": "C52", "title": "The fast marching update solves the eikonal equation in the triangle", "statement": "For a non-obtuse corner, when eikonalDistanceSubroutine accepts its quadratic solution, the linear function with the given values at the two known corners and the returned value at the third has a gradient of length one; otherwise the result is a distance along one of the two sides.", "quantifier": "all triangles with a corner angle in (0, pi/2], all known values, both signs", "why_tests_cant": "The formula is an algebraic identity in five real parameters; sampling finds neither sign errors on thin sets nor proves the identity.", "anchors": ["src/surface/fast_marching_method.cpp: eikonalDistanceSubroutine"]}
{"id": "C53", "title": "Barycentric helpers: lengths, normalisation, projection", "statement": "displacementLength is the Euclidean length of a barycentric displacement; normalizeBarycentric returns proportional coordinates with sum one; normalizeBarycentricDisplacement returns the displacement with sum zero; projectInsideTriangle returns a point of the triangle and keeps points of the triangle.", "quantifier": "all triangles and all coordinates", "why_tests_cant": "Universal over real triangles and coordinates, including coordinates with sum zero.", "anchors": ["include/geometrycentral/surface/barycentric_coordinate_helpers.ipp"]}
{"id": "C54", "title": "Level curves: every triangle the level passes through contributes one segment on the level", "statement": "For every triangle with a corner below and a corner above the level, marchingTriangles adds exactly one segment, whose ends are on the boundary of the triangle and interpolate to the level; a triangle entirely on one side adds none.", "quantifier": "all valid meshes, all vertex values, all levels", "why_tests_cant": "Continuous input; failures need values exactly on the level.", "anchors": ["src/surface/marching_triangles.cpp: marchingTriangles"]}
{"id": "C55", "title": "Face tokens of OBJ files are parsed in bounds", "statement": "parseFaceIndex accesses only the three entries of its local array, whatever the token.", "quantifier": "all tokens", "why_tests_cant": "a malformed token only corrupts the stack, which need not be visible in the result", "anchors": ["src/surface/simple_polygon_mesh.cpp: parseFaceIndex"]}
{"id": "C56", "title": "Mutations by position tell the callbacks where on the edge they happen", "statement": "splitEdge(e, position) and collapseEdge(e, position) pass every callback the parameter of the point of the edge nearest to the position.", "quantifier": "all histories of policy registration, removal and mutation, all edges and positions", "why_tests_cant": "The parameter is only visible to user callbacks; unbounded histories.", "anchors": ["src/surface/mutation_manager.cpp: splitEdge", "src/surface/mutation_manager.cpp: collapseEdge"]}
{"id": "C57", "title": "Graph searches give back the quantities they require", "statement": "After shortestEdgePath and vertexDijkstraDistanceWithinRadius the require count of the edge lengths is what it was before.", "quantifier": "all meshes, vertices, radii", "why_tests_cant": "A leaked count has no visible effect except that purging never frees or refreshes less; every exit path has to be looked at.", "anchors": ["src/surface/mesh_graph_algorithms.cpp"]}
{"id": "C58", "title": "Following a curve through normal coordinates is reversible and stays in range", "statement": "stepTopologicalCurve from a valid crossing of a triangle side ends in the opposite vertex or gives a valid crossing of another side of that triangle; stepping in the opposite direction from there gives the crossing one started from; topologicalTrace(Corner) starts exactly the curves that end in the corner.", "quantifier": "all triangles of all meshes, all consistent coordinates with at most one arc along a side, all crossings", "why_tests_cant": "Infinite integer domain; a wrong offset shows only for particular combinations of corner counts and emanating arcs.", "anchors": ["src/surface/normal_coordinates.cpp: stepTopologicalCurve", "src/surface/normal_coordinates.cpp: topologicalTrace"]}
{"id": "C59", "title": "Splitting an edge gives the crossings of the four new edges", "statement": "computeInteriorEdgeSplitDataCombinatorial returns, for the split point after crossing number iSeg, how many arcs cross each of the four new edges.", "quantifier": "all consistent coordinates of two adjacent triangles, all iSeg", "why_tests_cant": "Unsigned wrap-around followed by an out-of-range conversion happens to give 0 on some platforms, so tests pass there.", "anchors": ["src/surface/normal_coordinates.cpp: computeInteriorEdgeSplitDataCombinatorial"]}
{"id": "C60", "title": "flipToDelaunay ends with an intrinsic Delaunay triangulation of the same surface", "statement": "If flipToDelaunay (simple_idt) returns on a triangle mesh with nondegenerate edge lengths, the mesh is a valid triangle mesh with nondegenerate lengths, reached by flips of edges whose new length is the other diagonal of the convex quadrilateral of the two triangles, and every interior edge has opposite angles adding up to at most pi up to the tolerance; the number of flips is returned. It does not throw, also not for meshes with boundary.", "quantifier": "all valid triangle meshes with or without boundary, all nondegenerate edge lengths, Euclidean and hyperbolic flips, every run that ends", "why_tests_cant": "A wrong geometric formula or a missed re-insertion in the queue matters only for particular lengths; the tests use closed meshes.", "anchors": ["src/surface/simple_idt.cpp: flipToDelaunay", "src/surface/simple_idt.cpp: flipEdgeIfNotDelaunay"]}
{"id": "C61", "title": "Flipping an intrinsic triangulation keeps the metric and the fixed edges", "statement": "If IntrinsicTriangulation::flipToDelaunay returns for a signpost triangulation, fixed edges (boundary or marked) are still there with their lengths and ends, all other edges satisfy the Delaunay condition up to the tolerance, isDelaunay() answers true, and the metric is the same: every step replaced one diagonal of a convex quadrilateral by the other. flipEdgeIfPossible either changes nothing and returns false or does one such flip.", "quantifier": "all valid triangle meshes, all nondegenerate edge lengths, all sets of marked edges, every run that ends", "why_tests_cant": "A flip across a fixed edge or into a degenerate triangle happens only for particular lengths.", "anchors": ["src/surface/signpost_intrinsic_triangulation.cpp: flipEdgeIfNotDelaunay", "src/surface/signpost_intrinsic_triangulation.cpp: flipEdgeIfPossible", "src/surface/intrinsic_triangulation.cpp: flipToDelaunay"]}
{"id": "C62", "title": "Statistics and dense indices describe the mesh", "statement": "nConnectedComponents, nInteriorVertices, isTriangular and hasBoundary return what their names say, and the get…Indices functions number the existing elements 0, 1, … in order, also after deletions.", "quantifier": "all valid meshes, manifold or general", "why_tests_cant": "Tests look at a few meshes that are compressed and mostly manifold; unused slots and boundary edges of general meshes behave differently.", "anchors": ["src/surface/surface_mesh.cpp: nConnectedComponents", "src/surface/surface_mesh.cpp: nInteriorVertices", "src/surface/surface_mesh.cpp: getVertexIndices", "src/surface/manifold_surface_mesh.cpp: hasBoundary"]}
{"id": "C63", "title": "A mesh can be rebuilt from its face list", "statement": "Building a ManifoldSurfaceMesh from getFaceVertexList() is accepted and gives the same mesh: a one-to-one map of the halfedges that respects next, twin, vertex, face and boundary.", "quantifier": "all valid manifold meshes", "why_tests_cant": "Meshes with two edges between the same vertices arise only through mutation; unused slots too.", "anchors": ["src/surface/surface_mesh.cpp: getFaceVertexList", "src/surface/manifold_surface_mesh.cpp: ManifoldSurfaceMesh(polygons)", "src/surface/meshio.cpp: writeSurfaceMesh"]}
{"id": "C64", "title": "Angles and curvatures satisfy Gauss-Bonnet", "statement": "The corner angles of a face sum to pi, the angle sums and the immediate and cached Gaussian curvatures agree with the corners, and the curvatures sum to 2 pi times the Euler characteristic (less the boundary part), likewise the face curvatures from the scaled angles.", "quantifier": "all valid triangle meshes, all edge lengths with strict triangle inequalities", "why_tests_cant": "Tests check a few meshes within a tolerance.", "anchors": ["src/surface/intrinsic_geometry_interface.cpp: computeCornerAngles", "src/surface/intrinsic_geometry_interface.cpp: computeVertexAngleSums", "src/surface/intrinsic_geometry_interface.cpp: computeCornerScaledAngles", "src/surface/intrinsic_geometry_interface.cpp: computeVertexGaussianCurvatures", "src/surface/intrinsic_geometry_interface.cpp: computeFaceGaussianCurvatures", "include/geometrycentral/surface/edge_length_geometry.ipp: vertexGaussianCurvature"]}
{"id": "C65", "title": "The Laplacians are Dirichlet energies", "statement": "The cotangent and the Crouzeix-Raviart Laplacian are symmetric, have zero row sums, are positive semidefinite with only the constants (on each component) in the kernel, and their quadratic form is the Dirichlet energy of the piecewise linear interpolation.", "quantifier": "all valid triangle meshes, all edge lengths with strict triangle inequalities, all vectors", "why_tests_cant": "Semidefiniteness with negative cotangents and the kernel cannot be read off from samples.", "anchors": ["src/surface/intrinsic_geometry_interface.cpp: computeHalfedgeCotanWeights", "src/surface/intrinsic_geometry_interface.cpp: computeEdgeCotanWeights", "src/surface/intrinsic_geometry_interface.cpp: computeCotanLaplacian", "src/surface/intrinsic_geometry_interface.cpp: computeCrouzeixRaviartLaplacian"]}
{"id": "C66", "title": "Mass matrices and exterior calculus fit together", "statement": "Dual areas sum to the area; the Galerkin mass matrix is symmetric positive definite, integrates products of linear functions and lumps to the lumped matrix; face and edge mass matrices are diagonal with trace the area; d0 and d1 are difference and circulation, d1 d0 = 0, and d0^T hodge1 d0 is the cotangent Laplacian.", "quantifier": "all valid triangle meshes (d0, d1: all valid meshes), all edge lengths with strict triangle inequalities, all vectors", "why_tests_cant": "The indices agree on compressed meshes only by luck; tests have few elements deleted.", "anchors": ["src/surface/intrinsic_geometry_interface.cpp: computeVertexDualAreas", "src/surface/intrinsic_geometry_interface.cpp: computeVertexLumpedMassMatrix", "src/surface/intrinsic_geometry_interface.cpp: computeVertexGalerkinMassMatrix", "src/surface/intrinsic_geometry_interface.cpp: computeFaceGalerkinMassMatrix", "src/surface/intrinsic_geometry_interface.cpp: computeCrouzeixRaviartMassMatrix", "src/surface/intrinsic_geometry_interface.cpp: computeDECOperators", "include/geometrycentral/surface/edge_length_geometry.ipp: vertexDualArea"]}
{"id": "C67", "title": "Tangent spaces and parallel transport are consistent", "statement": "The vectors of the halfedges in a face lay the triangle out counterclockwise with the given lengths; the vectors at a vertex are polar coordinates whose angles grow by the scaled corner angles; transport across and along a halfedge is the unit rotation that identifies the shared edge and is inverse for the twin; transport around an interior vertex (around a face) rotates by the curvature of the vertex (of the face).", "quantifier": "all valid triangle meshes, all edge lengths with strict triangle inequalities", "why_tests_cant": "Tests compare a few rotations within a tolerance; the sign of the law of cosines and the choice of the first halfedge show only on special meshes.", "anchors": ["src/surface/intrinsic_geometry_interface.cpp: computeHalfedgeVectorsInFace", "src/surface/intrinsic_geometry_interface.cpp: computeTransportVectorsAcrossHalfedge", "src/surface/intrinsic_geometry_interface.cpp: computeHalfedgeVectorsInVertex", "src/surface/intrinsic_geometry_interface.cpp: computeTransportVectorsAlongHalfedge", "src/surface/intrinsic_geometry_interface.cpp: computeShapeLengthScale", "src/surface/intrinsic_geometry_interface.cpp: computeMeshLengthScale"]}
{"id": "C68", "title": "The connection Laplacians are Hermitian energies", "statement": "The vertex, face and Crouzeix-Raviart connection Laplacians are Hermitian, and their quadratic form is the weighted sum over the edges of the squared difference of the transported values, respectively (edges) the Dirichlet energy of the interpolated vector field, which is nonnegative.", "quantifier": "all valid triangle meshes (faces: with at most 2^32 faces), all edge lengths with strict triangle inequalities, all complex vectors", "why_tests_cant": "Hermitian on one mesh says nothing about signs of halfedges on another; the index is truncated only beyond 2^32 faces.", "anchors": ["src/surface/intrinsic_geometry_interface.cpp: computeVertexConnectionLaplacian", "src/surface/intrinsic_geometry_interface.cpp: computeFaceConnectionLaplacian", "src/surface/intrinsic_geometry_interface.cpp: computeCrouzeixRaviartConnectionLaplacian"]}
{"id": "C69", "title": "Geometry from positions is the geometry of the edge lengths", "statement": "The lengths computed from positions satisfy the strict triangle inequalities, and areas, corner angles and cotangent weights computed from positions, cached or immediate, are those computed from the lengths.", "quantifier": "all valid triangle meshes, all positions without a degenerate face", "why_tests_cant": "The logic is written three times; tests compare the results within a tolerance on a few meshes.", "anchors": ["src/surface/embedded_geometry_interface.cpp: computeEdgeLengths", "src/surface/embedded_geometry_interface.cpp: computeFaceAreas", "src/surface/embedded_geometry_interface.cpp: computeCornerAngles", "src/surface/embedded_geometry_interface.cpp: computeHalfedgeCotanWeights", "src/surface/embedded_geometry_interface.cpp: computeEdgeCotanWeights", "include/geometrycentral/surface/vertex_position_geometry.ipp: edgeLength", "include/geometrycentral/surface/vertex_position_geometry.ipp: faceArea", "include/geometrycentral/surface/vertex_position_geometry.ipp: cornerAngle", "include/geometrycentral/surface/vertex_position_geometry.ipp: halfedgeCotanWeight", "include/geometrycentral/surface/vertex_position_geometry.ipp: edgeCotanWeight"]}
{"id": "C70", "title": "Normals, dihedral angles, curvatures and tangent bases fit together", "statement": "Face normals are unit, orthogonal to the face and on the counterclockwise side; vertex normals are their angle-weighted unit average; the dihedral angle rotates one normal about the edge into the other and is positive exactly at convex edges; mean curvatures add up to half of length times dihedral angle; principal curvatures are ordered with the right mean and product; tangent bases are orthonormal, right-handed with the normal, and place the planar layout of a face in space.", "quantifier": "all valid triangle meshes, all positions without a degenerate face", "why_tests_cant": "Signs and orders of cross products are right on a convex test mesh by luck; the immediate and cached versions are separate code.", "anchors": ["src/surface/embedded_geometry_interface.cpp: computeFaceNormals", "src/surface/embedded_geometry_interface.cpp: computeVertexNormals", "src/surface/embedded_geometry_interface.cpp: computeEdgeDihedralAngles", "src/surface/embedded_geometry_interface.cpp: computeFaceTangentBasis", "src/surface/embedded_geometry_interface.cpp: computeVertexTangentBasis", "src/surface/extrinsic_geometry_interface.cpp: computeVertexMeanCurvatures", "src/surface/extrinsic_geometry_interface.cpp: computePrincipalCurvatures", "include/geometrycentral/surface/vertex_position_geometry.ipp: faceNormal", "include/geometrycentral/surface/vertex_position_geometry.ipp: edgeDihedralAngle", "include/geometrycentral/surface/vertex_position_geometry.ipp: vertexMeanCurvature"]}
{"id": "C71", "title": "The normal of a polygon is its normalized vector area", "statement": "The normal of every face is the unit vector of its vector area, as documented.", "quantifier": "all valid meshes, all faces of degree three or more, all positions", "why_tests_cant": "Tests use triangles, quads and nearly regular polygons, where the sum over the corners points the same way.", "anchors": ["src/surface/embedded_geometry_interface.cpp: computeFaceNormals", "include/geometrycentral/surface/vertex_position_geometry.ipp: faceNormal"]}
{"id": "C72", "title": "Mean curvature normals are half the gradient of the area", "statement": "When the vertices move with given velocities, the total area of the mesh changes at the rate of twice the sum of the dot products of the mean curvature normals with the velocities; the cached and the immediate normals agree.", "quantifier": "all valid triangle meshes, all positions without a degenerate face, all velocities", "why_tests_cant": "A test would compare finite differences on a few meshes.", "anchors": ["src/surface/embedded_geometry_interface.cpp: computeVertexDualMeanCurvatureNormals", "src/surface/embedded_geometry_interface.cpp: computeFaceAreas", "include/geometrycentral/surface/vertex_position_geometry.ipp: vertexDualMeanCurvatureNormal"]}
{"id": "C73", "title": "Indices of direction fields", "statement": "The index of a face of a vertex field (of a vertex of a face field) is the number of turns of the field around it, relative to parallel transport; the total is an integer before rounding; on a closed surface the indices sum to the symmetry order times the Euler characteristic.", "quantifier": "all valid triangle meshes, all edge lengths satisfying the triangle inequalities, all nowhere vanishing fields, all symmetry orders", "why_tests_cant": "The comment in the code says indices larger than one are untested; the sum depends on every transport, curvature and sign convention at once.", "anchors": ["src/surface/direction_fields.cpp: computeFaceIndex", "src/surface/direction_fields.cpp: computeVertexIndex"]}
{"id": "C74", "title": "The tufted cover is a closed oriented double cover", "statement": "buildIntrinsicTuftedCover succeeds on every valid mesh and produces two copies of every face, one of them turned over, such that every edge has exactly two halfedges in opposite directions, only copies of halfedges of the same original edge are joined, in cyclic order around that edge, and every new edge inherits the length; vertices stay, faces and halfedges double, edges are as many as the old halfedges.", "quantifier": "all valid general meshes below the index limit, nonmanifold and inconsistently oriented edges included, all orders of faces around the edges", "why_tests_cant": "The Laplacian is meant for arbitrary bad meshes; a wrong pairing at one kind of nonmanifold fan still gives a plausible matrix.", "anchors": ["src/surface/tufted_laplacian.cpp: buildIntrinsicTuftedCover"]}
{"id": "C75", "title": "Distances, intersections and the fourth point of a tetrahedron", "statement": "pointLineSegmentDistance is the least distance to a point of the segment and the nearest-location parameter attains it; the parameters of two non-parallel rays or segments are those of the only common point and hit tells exactly whether the segments meet; tetFourthPoint returns a point with the three given distances and positive orientation.", "quantifier": "all points and segments (degenerate ones included for the distance), all non-degenerate triangles and realizable distances", "why_tests_cant": "Clamping, signs and orientation are decided per region of a continuous input space; a mirrored tetrahedron has all the right lengths.", "anchors": ["include/geometrycentral/utilities/elementary_geometry.ipp: pointLineSegmentDistance", "include/geometrycentral/utilities/elementary_geometry.ipp: pointLineSegmentNeaestLocation", "include/geometrycentral/utilities/elementary_geometry.ipp: raySegmentIntersection", "include/geometrycentral/utilities/elementary_geometry.ipp: rayRayIntersection", "include/geometrycentral/utilities/elementary_geometry.ipp: segmentSegmentIntersection", "include/geometrycentral/utilities/elementary_geometry.ipp: tetFourthPoint"]}
{"id": "C76", "title": "separateNonmanifoldVertices gives each fan of corners its own vertex", "statement": "On an edge-manifold general mesh separateNonmanifoldVertices succeeds and leaves a valid mesh with the same halfedges, faces and edges; two halfedges leave the same vertex afterwards just if their corners are connected by crossing edges; each vertex remembers the vertex it came from, old vertices stay in use, and a mesh whose vertices are single fans keeps its vertices. An edge with three or more faces makes it throw.", "quantifier": "all valid general meshes whose doubled storage fits the index type, with any orientation of faces, boundary and dead elements", "why_tests_cant": "The fans are components of a union-find over all corners; which corner opens a component depends on the element order.", "anchors": ["src/surface/surface_mesh.cpp: SurfaceMesh::separateNonmanifoldVertices", "src/surface/surface_mesh.cpp: SurfaceMesh::getNewVertex", "src/surface/surface_mesh.cpp: SurfaceMesh::initializeHalfedgeNeighbors"]}
{"id": "C77", "title": "Loops around vertices of general meshes visit each incident edge, and the manifold tests mean what they say", "statement": "On a general mesh adjacentEdges of a vertex lists each incident edge once per end at the vertex, adjacentVertices lists the other end of each, the degrees sum to twice the number of edges, isBoundary finds the boundary edges, and connectingEdge finds an edge to the other vertex if there is one. Vertex::isManifold is true just if the edges there are manifold and the corners are one fan, and isManifoldAndOriented just if that fan is consistently oriented.", "quantifier": "all valid general meshes and live vertices, with any orientation of faces, non-manifold edges, loops, boundary and dead elements", "why_tests_cant": "The loop walks the outgoing ring and then the incoming ring and skips halfedges that are not canonical for their edge; with loops, doubled edges and mixed orientations an edge may be met once, twice or more in each ring.", "anchors": ["include/geometrycentral/surface/halfedge_element_types.ipp: VertexNeighborIteratorState::advance", "include/geometrycentral/surface/halfedge_element_types.ipp: Vertex::isManifold", "include/geometrycentral/surface/halfedge_element_types.ipp: Vertex::isManifoldAndOriented", "src/surface/surface_mesh.cpp: SurfaceMesh::connectingEdge"]}
{"id": "C78", "title": "Flipping an edge of a general mesh", "statement": "On a general mesh flip(e) always returns and leaves a valid mesh. It answers true just if e has two halfedges in two different triangles and, with preventSelfEdges, no edge joins the two opposite vertices; then e joins the opposite vertices, the two faces exchange one side each, every other edge keeps its ends and every other face everything; otherwise the connectivity is unchanged. This holds whether or not the two triangles are oriented alike. A flipped edge can be flipped again, after which all edges have their old ends.", "quantifier": "all valid general meshes without one-sided faces, all live edges and both values of preventSelfEdges", "why_tests_cant": "Six halfedges, their vertices possibly equal, two orientations and the linked lists of four vertices; a wrong pointer in one of the combinations goes unnoticed until a later traversal.", "anchors": ["src/surface/surface_mesh.cpp: SurfaceMesh::flip", "src/surface/surface_mesh.cpp: SurfaceMesh::invertOrientation", "src/surface/surface_mesh.cpp: SurfaceMesh::removeFromVertexLists"]}
{"id": "C79", "title": "Constructing a manifold mesh from polygons and twins", "statement": "Given polygons and a twin for every side (or INVALID_IND twice), with mutual twins that run in opposite directions, ManifoldSurfaceMesh(polygons, twins) throws just if two sides without twin end at the same vertex. Otherwise the interior halfedges of the mesh correspond one to one to the sides: vertices, faces and next follow the polygons, twins are glued as listed even where several edges join the same vertices, and the twins of the remaining sides are on boundary loops. The mesh is valid just if every vertex index is used and the corners at every vertex are connected through the twins; the constructor does not check the latter two.", "quantifier": "all polygon lists with matching twin lists whose size does not exhaust the index type", "why_tests_cant": "Gluings are arbitrary: several edges between the same vertices, faces glued to themselves, any number of boundary loops, any order of the sides.", "anchors": ["src/surface/manifold_surface_mesh.cpp: ManifoldSurfaceMesh::ManifoldSurfaceMesh(polygons, twins)"]}
{"id": "C80", "title": "Converting a general mesh to a manifold mesh", "statement": "SurfaceMesh::isManifold is true just if every edge is manifold and the faces at each vertex are linked through edges there, isOriented just if every edge has at most two halfedges, which run in opposite directions. toManifoldMesh throws if either is false. Otherwise, unless two boundary halfedges end at one vertex, it returns a manifold mesh with the same connectivity: halfedges correspond to interior halfedges, faces and vertices are numbered densely in index order, next and the first halfedge of each face are kept, siblings become twins and boundary halfedges get an exterior twin. The result is valid just if there is a face and the corners at each vertex form one fan; a mesh that is manifold in this sense always converts.", "quantifier": "all valid general meshes, with dead elements, boundary, several edges between the same vertices and faces glued to themselves, without loop edges and faces of two sides", "why_tests_cant": "The conversion copies positions of siblings within faces by three passes over the faces and an index per element; a wrong position goes unnoticed on meshes whose edges are determined by their end points. The accepted meshes that are not manifold meet a vertex twice with one face, which test meshes do not.", "anchors": ["src/surface/surface_mesh.cpp: SurfaceMesh::toManifoldMesh", "src/surface/surface_mesh.cpp: SurfaceMesh::isManifold", "src/surface/surface_mesh.cpp: SurfaceMesh::isOriented", "src/surface/surface_mesh.cpp: SurfaceMesh::getFaceVertexList"]}
{"id": "C81", "title": "Subdivision into quadrilaterals", "statement": "linearSubdivide on a valid mesh without vertices of degree one finishes and yields a valid mesh: every edge is cut in two at its midpoint, every face is cut at its centroid into one quadrilateral per corner, old vertices keep index and position; there are nV + nE + nF vertices, 2 nE plus the number of interior halfedges edges, and as many faces as there were interior halfedges, all of degree four; boundary loops stay. catmullClarkSubdivide yields the same connectivity, with the positions of the scheme of Catmull and Clark.", "quantifier": "all valid manifold meshes below the limits of storage, with dead elements, boundary and faces of any degree, all positions", "why_tests_cant": "The loops insert elements into and remove them from the mesh they run over and tell old from new elements by flags; which indices are met depends on the free slots of the storage. Errors show in faces glued to themselves, in meshes with removed elements and in the order in which spokes are removed.", "anchors": ["src/surface/subdivide.cpp: linearSubdivide", "src/surface/subdivide.cpp: catmullClarkSubdivide", "src/surface/manifold_surface_mesh.cpp: insertVertexAlongEdge, insertVertex, removeEdge"]}
{"id": "C82", "title": "Loop subdivision", "statement": "loopSubdivide on a valid triangle mesh finishes and yields a valid triangle mesh: every edge is cut in two, every triangle into four, old vertices keep their index; there are nV + nE vertices, 2 nE + 3 nF edges and 4 nF faces, and the boundary loops stay. New vertices on inner edges have 3/8 of each end and 1/8 of each opposite corner, those on boundary edges are half way; old vertices move as in the scheme of Loop, on the boundary by the rule 1/8, 3/4, 1/8. A mesh with other faces is refused.", "quantifier": "all valid manifold triangle meshes below the limits of storage, with dead elements and boundary, all positions", "why_tests_cant": "The triangles are obtained by splitting all edges one after the other and then flipping those edges that run from a new to an old vertex; which edges these are depends on the order of the edges in each triangle, and a flip may be refused because of earlier flips in other triangles. A test sees only a few orders and no vertices of degree two.", "anchors": ["src/surface/subdivide.cpp: loopSubdivide", "src/surface/manifold_surface_mesh.cpp: splitEdgeTriangular", "src/surface/surface_mesh.cpp: flip"]}
{"id": "C83", "title": "Quadric error simplification", "statement": "quadricErrorSimplify on a valid triangle mesh without double edges ends and keeps the mesh a valid triangle mesh without double edges with the same Euler characteristic and number of boundary loops. The result is the input with vertices merged and faces removed. On return each edge costs more than the tolerance or was turned down with its present quadric. On a closed mesh each vertex lies where the sum of squared distances to the planes of the faces at all vertices merged into it is least, and this sum exceeds the tolerance by no more than 1e-8. It throws only if it has produced a component of two triangles.", "quantifier": "all valid triangle meshes without double edges, all positions, tolerances and constraints, all orders in which equal entries leave the queue, any arithmetic without NaN for the claims on the mesh", "why_tests_cant": "The loop runs over a queue with outdated entries for removed or changed edges; which collapses are refused, throw or break the mesh depends on the whole history. That no double edge ever arises, and that no edge is forgotten, are invariants over all runs.", "anchors": ["src/surface/quadric_error_simplification.cpp: quadricErrorSimplify, Quadric", "include/geometrycentral/surface/quadric_error_simplification.h: Quadric", "src/surface/mutation_manager.cpp: MutationManager::collapseEdge", "src/surface/manifold_surface_mesh.cpp: collapseEdgeTriangular"]}
{"id": "C84", "title": "Cutting a mesh along edges", "statement": "cutAlongEdges returns the mesh cut open along the given tree of edges: the faces and the order of the halfedges in them are kept, both sides of each cut edge are on the boundary, all other edges are glued as before, two corners share a vertex exactly when they were corners of one vertex with no cut in between, there is one more boundary loop, and all counts are right. Each halfedge of a face has as parent the halfedge that it comes from; exterior halfedges have none. Without a leaf it throws.", "quantifier": "all valid triangle meshes, all trees of edges without vertices on the boundary, all orders in which the edges of the tree are met", "why_tests_cant": "Which halfedge of an edge gets a new place, which vertex is doubled and in which order the edges are met depends on the shape of the tree and on all earlier cuts; that each cut meets exactly one end on the boundary is an invariant of the walk over the tree.", "anchors": ["src/surface/surgery.cpp: cutAlongEdges", "include/geometrycentral/surface/surgery.h: cutAlongEdges", "src/surface/manifold_surface_mesh.cpp: separateEdge", "include/geometrycentral/utilities/mesh_data.ipp: setDefault"]}
{"id": "C85", "title": "Differential operators on polygon meshes", "statement": "polygonLaplacian is symmetric, positive semidefinite, has zero row sums and exactly the functions in its kernel that agree at the ends of each edge; on triangle meshes it is the cotangent Laplacian, whatever the stabilisation parameter. The divergence matrix is the transposed gradient matrix times the areas, and the gradient matrix gives the gradient of functions that are linear on a face. On planar faces the energy of a linear function is its Dirichlet energy. The operators of the exterior calculus form a complex (d1 d0 = 0), hodge0 sums to the area, hodge1 is symmetric and positive definite on the halfedges of faces, hodge2 holds the inverse areas, and d0^T hodge1 d0 is polygonLaplacian.", "quantifier": "all valid meshes with faces of positive area, all degrees, all positions, all positive stabilisation parameters", "why_tests_cant": "Definiteness and exactness are statements about all functions on all meshes; the operators are products of matrices whose size is the degree of the face, and the stabilisation hides mistakes in them on the few shapes of a test.", "anchors": ["src/surface/embedded_geometry_interface.cpp: computePolygonLaplacian", "src/surface/embedded_geometry_interface.cpp: computePolygonGradientMatrix", "src/surface/embedded_geometry_interface.cpp: computePolygonDivergenceMatrix", "src/surface/embedded_geometry_interface.cpp: computePolygonDECOperators", "src/surface/embedded_geometry_interface.cpp: polygonPerFaceLaplacian", "src/surface/embedded_geometry_interface.cpp: polygonPerFaceInnerProductMatrix"]}
{"id": "C86", "title": "Polygon operators by virtual refinement", "statement": "The virtual vertex of each face is an affine combination of its corners that makes the sum of the squared areas of the triangles around it minimal among all points. simplePolygonLaplacian is symmetric and positive semidefinite with zero row sums; when no triangle of the refinement is below the threshold, its kernel holds exactly the functions that agree at the ends of each edge, and linear functions have their Dirichlet energy on the refined mesh. The Galerkin mass matrix is symmetric, positive semidefinite, definite on the vertices of faces of positive area, and sums to the area of the refined mesh; the lumped matrix is diagonal with its row sums. On triangle meshes the operators are the cotangent Laplacian and the Galerkin mass matrix.", "quantifier": "all valid meshes, all degrees, all positions, all solvers that solve every solvable system", "why_tests_cant": "The virtual vertex comes from a least squares problem whose size is the degree of the face, and definiteness and minimality are statements about all functions and all points; an absolute threshold on the areas is only seen on meshes of the right scale.", "anchors": ["src/surface/polygon_mesh_helpers.cpp: simplePolygonVirtualVertex", "src/surface/embedded_geometry_interface.cpp: computeSimplePolygonLaplacian", "src/surface/embedded_geometry_interface.cpp: computeSimplePolygonVertexGalerkinMassMatrix", "src/surface/embedded_geometry_interface.cpp: computeSimplePolygonVertexLumpedMassMatrix", "src/surface/embedded_geometry_interface.cpp: simplePolygonMassMatrix", "src/surface/embedded_geometry_interface.cpp: simplePolygonStiffnessMatrix"]}
{"id": "C87", "title": "Connection Laplacian of polygon meshes", "statement": "The connection Laplacian for polygon meshes is Hermitian for all normals and bases. When the bases are oriented orthonormal bases of the planes normal to the vertex and face normals and no vertex normal is opposite to the normal of an adjacent face, its form is that of the polygon Laplacian, with the same weights for each pair of corners of a face, applied to the tangent vectors turned into the plane of the face by the rotation that takes the vertex normal to the face normal and keeps what is normal to both. It is positive semidefinite and its kernel consists of the fields that are parallel along each face. On every triangle mesh it is computed without error.", "quantifier": "all valid meshes, all degrees, all positions with faces of positive area, all normals and bases, all positive lambda", "why_tests_cant": "The statement is about all bases and all fields; a wrong transport or a transposed block gives a Hermitian matrix of the right size, and definiteness and the kernel cannot be read off samples.", "anchors": ["src/surface/embedded_geometry_interface.cpp: computePolygonVertexConnectionLaplacian", "src/surface/embedded_geometry_interface.cpp: polygonPerFaceConnectionLaplacian", "src/surface/embedded_geometry_interface.cpp: polygonBlockConnection", "src/surface/embedded_geometry_interface.cpp: polygonCovariantGradient", "src/surface/embedded_geometry_interface.cpp: polygonCovariantProjection", "src/surface/embedded_geometry_interface.cpp: Qvf", "src/surface/embedded_geometry_interface.cpp: Rvf", "src/surface/embedded_geometry_interface.cpp: computePolygonVertexNormals"]}
{"id": "C88", "title": "Reading STL and OFF files", "statement": "A well-formed ASCII or binary STL file is read as its facets: the vertices are the corners in the order of the file, each is used by one polygon once, and the corners of a facet keep their order or are reversed when the first three corners lie against the given normal. Whatever an STL file contains, the reader ends, and a mesh that is returned uses each vertex once and has no polygon with fewer than three corners. A binary file yields the announced number of triangles exactly if it is long enough. A well-formed OFF file, with comments, empty lines and trailing data anywhere they are allowed, is read as its vertices and faces, and every OFF file that is read yields the announced numbers of vertices and faces.", "quantifier": "all files, all numbers of facets, vertices and faces, all degrees, all layouts of blanks, all number formats that are read exactly", "why_tests_cant": "Files are arbitrary texts; sample files do not contain the layouts (facets with two corners, short lines, truncated records, carriage returns) on which values are used that were never read.", "anchors": ["src/surface/simple_polygon_mesh.cpp: readMeshFromAsciiStlFile", "src/surface/simple_polygon_mesh.cpp: readMeshFromBinaryStlFile", "src/surface/simple_polygon_mesh.cpp: readMeshFromStlFile", "src/surface/simple_polygon_mesh.cpp: readMeshFromOffFile"]}
{"id": "C89", "title": "Heat method on polygon meshes", "statement": "On every mesh whose faces have area, the operator of the scalar heat flow is symmetric and positive definite for every time. The extension of scalars is the quotient of the two heat flows, and constant when the sources agree. On a connected mesh with planar triangles and quadrilaterals, if a function has unit gradient on each face and the heat flow from the sources is a decreasing linear function of it on each face, the computed distance is this function shifted to have least value zero. For the signed distance, a segment of a curve contributes its tangent turned left by a right angle to both ends; integrating the negative gradients of a function gives the function up to a constant, with average zero on the curves.", "quantifier": "all meshes and positions with the stated faces, all times, all sources and curves, all exact linear solvers", "why_tests_cant": "Tests compare distances on sample meshes up to a tolerance; they do not show that the operator is definite for every mesh and time, nor that signs and index maps agree between gradient, divergence and Laplacian on meshes with deleted elements.", "anchors": ["src/surface/polygon_mesh_heat_solver.cpp: computeDistance", "src/surface/polygon_mesh_heat_solver.cpp: extendScalars", "src/surface/polygon_mesh_heat_solver.cpp: transportTangentVectors", "src/surface/polygon_mesh_heat_solver.cpp: computeSignedDistance", "src/surface/polygon_mesh_heat_solver.cpp: buildSignedCurveSource", "src/surface/polygon_mesh_heat_solver.cpp: computeAverageValue", "src/surface/polygon_mesh_heat_solver.cpp: ensureHaveScalarHeatSolver", "src/surface/polygon_mesh_heat_solver.cpp: ensureHaveVectorHeatSolver"]}
{"id": "C90", "title": "Level set constraints of the signed distance on polygon meshes", "statement": "The vectors of the faces have length one and point in the direction of the sum of the vectors at the corners, and there is no result exactly if such a sum is zero. On a connected mesh with planar triangles and quadrilaterals, when the vectors of the faces are the negative gradients of a function: if it vanishes on the curves, the result with the constraint ZeroSet is this function; if it is constant on each curve, the result with the constraint Multiple is this function up to a constant and has average zero on the curves.", "quantifier": "all such meshes and positions, all functions that are linear on the faces, all curves through live vertices, all exact linear solvers", "why_tests_cant": "The result depends on the agreement of signs, index maps and blocks between five matrices; a test on a sample mesh with a tolerance does not separate a constraint that holds exactly from one that holds roughly, and a singular matrix may still be factored by chance.", "anchors": ["src/surface/polygon_mesh_heat_solver.cpp: computeSignedDistance", "src/surface/polygon_mesh_heat_solver.cpp: computeAverageValue"]}
{"id": "C91", "title": "Heat method for geodesic distance on triangle meshes", "statement": "The matrices of the two linear systems are symmetric and positive definite. The right-hand side of the second system has sum zero; where the heat falls off along the gradient of a function whose gradient has length one, it is the Laplacian of this function, and the result is this function up to a constant. The distance between two points of a face given by barycentric coordinates is the Euclidean distance. The distances are shifted so that their sum over vertex sources is zero.", "quantifier": "all triangle meshes with edge lengths that satisfy the triangle inequality, all times, all right-hand sides, all lists of sources, all exact linear solvers", "why_tests_cant": "A test compares distances with a tolerance that hides wrong signs of small terms, a wrong normalisation, and the difference between the system that is solved and the system that was meant.", "anchors": ["src/surface/heat_method_distance.cpp: HeatMethodDistanceSolver::HeatMethodDistanceSolver", "src/surface/heat_method_distance.cpp: computeDistance", "src/surface/heat_method_distance.cpp: computeDistanceRHS"]}
{"id": "C92", "title": "Boundary first flattening", "statement": "The scale factors computed from prescribed exterior angles with sum 2π satisfy the discrete Yamabe equation for these angles and have mean zero, and the exterior angles computed from prescribed scale factors satisfy it for these scale factors. The boundary is laid out as a closed polygon whose edges have the directions given by the exterior angles, with the lengths closest to the scaled lengths among all that close. The interior positions are harmonic and the boundary positions are kept.", "quantifier": "all triangulated disks with edge lengths that satisfy the triangle inequality, all scale factors, all exterior angles, all exact linear solvers", "why_tests_cant": "A test flattens a few meshes with scale factor zero and compares with a tolerance; a wrong sign of the scale factors, or a matrix that is singular but factorised all the same by rounding errors, is not seen.", "anchors": ["src/surface/boundary_first_flattening.cpp: BFF::BFF", "src/surface/boundary_first_flattening.cpp: dirichletToNeumann", "src/surface/boundary_first_flattening.cpp: neumannToDirichlet", "src/surface/boundary_first_flattening.cpp: computeBoundaryPositions", "src/surface/boundary_first_flattening.cpp: flattenFromBoth"]}
{"id": "C93", "title": "The vector heat method extends scalars and vectors without new extremes", "statement": "On a connected Delaunay mesh extendScalar gives every vertex a value between the least and the largest of the source values, for sources at any points of the surface. The vector heat operator is Hermitian and positive definite. transportTangentVectors gives vectors whose lengths lie between the least and the largest length of the sources, turning all sources by one angle turns the whole result by that angle, and multiples of a parallel field are extended to multiples of that field at every vertex. The scalars are the quotient of the heat flows of values and of indicators of the sources, the directions are those of the heat flow of the unit vectors with the connection Laplacian, and the lengths are the extended lengths.", "quantifier": "all triangle meshes with nonnegative cotangent weights, all edge lengths that satisfy the triangle inequality, all lists of sources, all positive time coefficients, all exact linear solvers", "why_tests_cant": "A test runs one mesh with a few sources and checks that the result is finite; a wrong weight at one corner of a source face, a transport in the wrong direction or an interpolation that leaves the range of the data gives a finite field too.", "anchors": ["src/surface/vector_heat_method.cpp: extendScalar", "src/surface/vector_heat_method.cpp: transportTangentVectors", "src/surface/vector_heat_method.cpp: ensureHaveScalarHeatSolver", "src/surface/vector_heat_method.cpp: ensureHaveVectorHeatSolver"]}
{"id": "C94", "title": "Uniformization of disks is conformal and keeps the boundary", "statement": "The lengths returned by uniformizeDisk without edge flips are the input lengths scaled by factors at the vertices that are one at the boundary vertices. So edges between boundary vertices keep their lengths, the length cross ratio at every edge is kept, and lengths stay positive. A pass scales by half the unique solution of the Dirichlet problem whose right-hand side is minus the curvature; the matrix of that problem is the derivative of the curvatures of the scaled lengths with respect to the scale factors. A metric without curvature at the interior vertices is returned unchanged.", "quantifier": "all compressed triangle meshes, all edge lengths, all linear solvers; for the equation of a pass: connected meshes with boundary, lengths that satisfy the triangle inequality, exact solvers", "why_tests_cant": "A test flattens a few meshes and looks at the curvature that remains within a tolerance; a wrong scale at one end of an edge or a boundary that drifts slowly over fifty passes gives a plausible metric as well.", "anchors": ["src/surface/uniformize.cpp: uniformizeDisk"]}
{"id": "C95", "title": "Isolines of stripe patterns", "statement": "crossingsModulo2Pi lists exactly the points of an edge at which the linear function is a multiple of 2 pi, with the smaller end included and the larger excluded, in order along the edge; from the other end it lists the same points in the opposite order. In a face with any corner values the three lists satisfy the assertions of matchCrossings, every crossing is matched exactly once and with a crossing of the same value. Whenever the assertions hold, matchCrossings stays in range, matches every crossing exactly once and no two segments cross.", "quantifier": "all corner values; all lists of crossings whose lengths satisfy the assertions", "why_tests_cant": "Values at multiples of 2 pi, edges without crossings and the second case of the matching are rare in test meshes; a matching with two curves exchanged draws plausible stripes.", "anchors": ["src/surface/stripe_patterns.cpp: crossingsModulo2Pi, matchCrossings"]}
{"id": "C96", "title": "Isolines at singular faces of stripe patterns", "statement": "At a face of nonzero stripe index, removeCrossings stays in range and removes as many crossings as the index says, whatever the order in which it meets them. The lists that are left satisfy the assertions of matchCrossings, which then stays in range and matches every crossing exactly once.", "quantifier": "all corner values, all indices, all orders of the crossings", "why_tests_cant": "Faces of index three or more appear only at high frequencies, and the failing order depends on the positions of the crossings.", "anchors": ["src/surface/stripe_patterns.cpp: removeCrossings, matchCrossings, connectIsolinesOnSingularities"]}
{"id": "C97", "title": "The energy matrix of stripe patterns", "statement": "buildVertexEnergyMatrix is symmetric, and its quadratic form is the sum over the edges of the weight times the squared difference between the value at the second vertex and the value at the first vertex turned by the one-form, conjugated where the edge crosses sheets, plus 1e-4 times the squared norm. With weights that are not negative it is positive definite.", "quantifier": "all valid meshes, edge lengths, one-forms, sheet flags and branch indices; for definiteness: nonnegative weights", "why_tests_cant": "A sign in one of the twelve entries per edge changes the pattern only where edges cross sheets, and the result still looks like stripes.", "anchors": ["src/surface/stripe_patterns.cpp: buildVertexEnergyMatrix"]}
