import Verif.Nav
import Verif.DisjointSets
import Verif.GMesh

/-! # Statistics, dense indices and face lists (surface_mesh.cpp:366-540, 646-660)

`VertexData<size_t> indices(*this)` is a function, 0 where nothing is written. -/

namespace GC

/-- The loop `indices[x] = i; i++` of `getVertexIndices`, `getHalfedgeIndices`, …, surface_mesh.cpp:466-540. -/
def number (l : List ℕ) : ℕ → ℕ := (l.foldl (fun (s : (ℕ → ℕ) × ℕ) x => (upd s.1 x s.2, s.2 + 1)) (fun _ => 0, 0)).1

/-- The loop of `getInteriorVertexIndices`, surface_mesh.cpp:476-488. -/
def numberUnless (skip : ℕ → Prop) [DecidablePred skip] (l : List ℕ) : ℕ → ℕ :=
  (l.foldl (fun (s : (ℕ → ℕ) × ℕ) x => if skip x then (upd s.1 x INV, s.2) else (upd s.1 x s.2, s.2 + 1)) (fun _ => 0, 0)).1

/-- `nConnectedComponents`, surface_mesh.cpp:442-453, for the lists of vertices and edges and the two vertices of an edge
the code looks up. The `unordered_set` is a finite set. -/
def components (nV : ℕ) (vs es : List ℕ) (fst snd : ℕ → ℕ) : Res ℕ := do
  let ind := number vs
  let d ← es.foldlM (fun d e => DS.merge d (ind (fst e)) (ind (snd e))) (DS.init nV)
  let (_, s) ← (List.range nV).foldlM (fun (s : DS × Finset ℕ) i => do
    let (d, r) ← s.1.find i
    .ok (d, insert r s.2)) (d, ∅)
  .ok s.card

namespace Mesh
variable (m : Mesh)

/-- `getVertexIndices`, surface_mesh.cpp:466-474. -/
def getVertexIndices : Res (ℕ → ℕ) := m.rangeVertices.map number
/-- `getInteriorVertexIndices`, surface_mesh.cpp:476-488. -/
def getInteriorVertexIndices : Res (ℕ → ℕ) := m.rangeVertices.map (numberUnless m.vIsBoundary)
/-- `getHalfedgeIndices`, surface_mesh.cpp:490-498. -/
def getHalfedgeIndices : Res (ℕ → ℕ) := m.rangeHalfedges.map number
/-- `getCornerIndices`, surface_mesh.cpp:500-508; corners are the interior halfedges (halfedge_element_types.ipp:285-287). -/
def getCornerIndices : Res (ℕ → ℕ) := m.rangeInteriorHalfedges.map number
/-- `getEdgeIndices`, surface_mesh.cpp:510-518. -/
def getEdgeIndices : Res (ℕ → ℕ) := m.rangeEdges.map number
/-- `getFaceIndices`, surface_mesh.cpp:521-529. -/
def getFaceIndices : Res (ℕ → ℕ) := m.rangeFaces.map number
/-- `getBoundaryLoopIndices`, surface_mesh.cpp:531-539. -/
def getBoundaryLoopIndices : Res (ℕ → ℕ) := m.rangeBoundaryLoops.map number

/-- `nInteriorVertices`, surface_mesh.cpp:455-463. -/
def nInteriorVertices : Res ℕ :=
  m.rangeVertices.map (fun l => l.foldl (fun n v => if ¬ m.vIsBoundary v then n + 1 else n) 0)

/-- `isTriangular`, surface_mesh.cpp:375-382. -/
def isTriangular : Res Bool := m.rangeFaces.map (fun l => !l.any (fun f => !decide (m.fIsTriangle f)))

/-- `ManifoldSurfaceMesh::hasBoundary`, manifold_surface_mesh.cpp:1821. -/
def hasBoundary : Bool := decide (0 < m.nBL)

/-- `SurfaceMesh::hasBoundary`, surface_mesh.cpp:366-373 (overridden for manifold meshes). -/
def hasBoundaryLoop : Res Bool := m.rangeEdges.map (fun l => l.any (fun e => decide (m.eIsBoundary e)))

/-- `nConnectedComponents`, surface_mesh.cpp:442-453. -/
def nConnectedComponents : Res ℕ := do
  let vs ← m.rangeVertices
  let es ← m.rangeEdges
  components m.nV vs es (fun e => m.heVertex (eHalfedge e)) (fun e => m.heVertex (twin (eHalfedge e)))

/-- `getFaceVertexList`, surface_mesh.cpp:646-660. -/
def getFaceVertexList : Res (List (List ℕ)) := do
  let vInd ← m.getVertexIndices
  let fs ← m.rangeFaces
  fs.foldlM (fun result f => do
    let l ← m.navFaceVertices f
    .ok (result ++ [l.map vInd])) []

end Mesh

namespace GMesh
variable (m : GMesh)

/-- The loop over the vertices of a general mesh. -/
def rangeVertices : Res (List ℕ) := rangeList (fun v => decide (m.vHalfedge v ≠ INV)) m.nVFill
/-- The loop over the edges of a general mesh; `edgeIsDead` looks at `eHalfedge` (surface_mesh.ipp:71). -/
def rangeEdges : Res (List ℕ) := rangeList (fun e => decide (m.eHalfedge e ≠ INV)) m.nEFill

/-- `nConnectedComponents`, surface_mesh.cpp:442-453; `he.twin()` is `sibling()` without implicit twins
(surface_mesh.ipp:38-39). -/
def nConnectedComponents : Res ℕ := do
  let vs ← m.rangeVertices
  let es ← m.rangeEdges
  components m.nV vs es (fun e => m.heVertex (m.eHalfedge e)) (fun e => m.heVertex (m.heSibling (m.eHalfedge e)))

end GMesh
end GC
