import Verif.GMesh
import Verif.Nav

/-!
# Iterating around the vertices of a general mesh, and the tests for manifold vertices

`include/geometrycentral/surface/halfedge_element_types.ipp`, the branches without implicit twins.  All
halfedges are interior.
-/

namespace GC.GMesh

/-- `VertexNeighborIteratorState`, halfedge_element_types.h: `currHe`, `firstHe`, `processingIncoming`. -/
structure NbrState where
  curr : ℕ
  first : ℕ
  inc : Bool
  deriving DecidableEq

/-- `Halfedge::prevOrbitFace`, halfedge_element_types.ipp:235-243. -/
def prevFace (m : GMesh) (h : ℕ) : Res ℕ := walkPrev m.heNext m.heNext h m.nHeFill h

/-- `VertexNeighborIteratorState::advance`, halfedge_element_types.ipp:140-162.  That the walk of
`prevOrbitFace` ends is checked before the loop, in `nbrStates`. -/
def nbrAdvance (m : GMesh) (s : NbrState) : NbrState :=
  if !s.inc then
    let curr := m.rout.nx s.curr
    if curr = s.first then
      match m.prevFace s.first with
      | .ok p => ⟨p, p, true⟩
      | .error _ => ⟨INV, INV, true⟩
    else ⟨curr, s.first, false⟩
  else
    let curr := m.rin.nx s.curr
    if curr = s.first then ⟨m.heNext s.first, m.heNext s.first, false⟩
    else ⟨curr, s.first, true⟩

/-- `isHalfedgeCanonical`, halfedge_element_types.ipp:164-172. -/
def canonical (m : GMesh) (h : ℕ) : Bool := h == m.eHalfedge (m.heEdge h)

/-- The states of the loops over `adjacentEdges()` and `adjacentVertices()`,
halfedge_element_types.ipp:113-121.  `operator==` (lines 174-176) does not compare `firstHe`; here it is
compared too, which is the same since `firstHe` is a function of `processingIncoming` (`nbr_iter`). -/
def nbrStates (m : GMesh) (v : ℕ) : Res (List NbrState) :=
  match m.prevFace (m.vHalfedge v) with
  | .error e => .error e
  | .ok _ => navList m.nbrAdvance (fun s => m.canonical s.curr) ⟨m.vHalfedge v, m.vHalfedge v, false⟩ (2 * m.nHeFill + 4)

/-- `Vertex::adjacentEdges`, halfedge_element_types.ipp:119-121, 201-203. -/
def adjacentEdges (m : GMesh) (v : ℕ) : Res (List ℕ) := (m.nbrStates v).map (List.map (fun s => m.heEdge s.curr))

/-- `Vertex::adjacentVertices`, halfedge_element_types.ipp:113-115, 179-187. -/
def adjacentVertices (m : GMesh) (v : ℕ) : Res (List ℕ) :=
  (m.nbrStates v).map (List.map (fun s => if !s.inc then m.tip s.curr else m.heVertex s.curr))

/-- `Vertex::adjacentFaces`, halfedge_element_types.ipp:116-118, 205-207. -/
def adjacentFaces (m : GMesh) (v : ℕ) : Res (List ℕ) := (m.outgoing v).map (List.map m.heFace)

/-- `Vertex::degree`, halfedge_element_types.ipp:95-99. -/
def degree (m : GMesh) (v : ℕ) : Res ℕ := (m.adjacentEdges v).map List.length

/-- `Vertex::isBoundary`, halfedge_element_types.ipp:37-46. -/
def vIsBoundary (m : GMesh) (v : ℕ) : Res Bool := (m.adjacentEdges v).map (fun l => l.any m.isBoundary)

/-- `Edge::firstVertex`, `secondVertex`, halfedge_element_types.ipp:307-308. -/
def firstVertex (m : GMesh) (e : ℕ) : ℕ := m.heVertex (m.eHalfedge e)
def secondVertex (m : GMesh) (e : ℕ) : ℕ := m.tip (m.eHalfedge e)

/-- `Edge::otherVertex`, halfedge_element_types.ipp:300-306. -/
def otherVertex (m : GMesh) (e v : ℕ) : ℕ := if m.heVertex (m.eHalfedge e) = v then m.tip (m.eHalfedge e) else m.heVertex (m.eHalfedge e)

/-- `SurfaceMesh::connectingEdge`, surface_mesh.cpp:637-644; `Edge()` is `none`. -/
def connectingEdge (m : GMesh) (vA vB : ℕ) : Res (Option ℕ) := (m.adjacentEdges vA).map (fun l => l.find? (fun e => m.otherVertex e vA == vB))

/-- The loop of `isManifoldAndOriented`, halfedge_element_types.ipp:56-61. -/
def maoLoop (m : GMesh) (v d first : ℕ) : ℕ → ℕ → ℕ → Res Bool
  | 0, _, _ => .error .hang
  | n + 1, k, curr =>
    let k := k + 1
    let curr := m.heNext (m.heSibling curr)
    if m.heVertex curr ≠ v then .ok false
    else if k > d then .ok false
    else if curr ≠ first then maoLoop m v d first n k curr
    else .ok (k == d)

/-- `Vertex::isManifoldAndOriented`, halfedge_element_types.ipp:48-64. -/
def isManifoldAndOriented (m : GMesh) (v : ℕ) : Res Bool := do
  let d ← m.degree v
  maoLoop m v d (m.vHalfedge v) (d + 2) 0 (m.vHalfedge v)

/-- The while loop over `toProc` in `Vertex::isManifold`, halfedge_element_types.ipp:74-86.  The back of
the vector is the head of the list. -/
def search (nbrs : ℕ → Res (List ℕ)) : ℕ → List ℕ → List ℕ → Res (List ℕ)
  | 0, _, _ => .error .hang
  | _ + 1, [], seen => .ok seen
  | n + 1, f :: toProc, seen =>
    if f ∈ seen then search nbrs n toProc seen
    else match nbrs f with
      | .error e => .error e
      | .ok l => search nbrs n (l.foldl (fun st fn => if fn ∈ f :: seen then st else fn :: st) toProc) (f :: seen)

/-- The faces `fn` of the inner loops, halfedge_element_types.ipp:79-85. -/
def faceNbrs (m : GMesh) (v f : ℕ) : Res (List ℕ) := do
  let hs ← m.faceHalfedges f
  hs.foldlM (fun acc he =>
    if m.heVertex he = v ∨ m.heVertex (m.heNext he) = v then do
      let es ← m.edgeHalfedges (m.heEdge he)
      .ok (acc ++ es.map m.heFace)
    else .ok acc) []

/-- `Vertex::isManifold`, halfedge_element_types.ipp:65-94. -/
def vIsManifold (m : GMesh) (v : ℕ) : Res Bool := do
  let es ← m.adjacentEdges v
  if es.all m.isManifold then do
    let seen ← search (m.faceNbrs v) ((m.nFFill + 1) * (m.nHeFill * m.nHeFill + 1) + 2) [m.heFace (m.vHalfedge v)] []
    let fs ← m.adjacentFaces v
    .ok (fs.all (fun f => decide (f ∈ seen)))
  else .ok false

end GC.GMesh
