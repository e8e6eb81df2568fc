import Verif.GRich
import Verif.GNav
import Verif.TwinBuild

/-! # Tests for manifold and oriented meshes, and `SurfaceMesh::toManifoldMesh` (surface_mesh.cpp:385-406, 551-588, 646-660) -/

namespace GC.GMesh
variable (m : GMesh)

/-- A loop that returns false at the first element failing a test. -/
def allM (t : ℕ → Res Bool) : List ℕ → Res Bool
  | [] => .ok true
  | x :: l => do
    let b ← t x
    if b then allM t l else .ok false

/-- `SurfaceMesh::isManifold`, surface_mesh.cpp:385-393. -/
def meshIsManifold : Res Bool := do
  let es ← m.rangeEdges
  let b ← allM (fun e => .ok (m.isManifold e)) es
  if !b then .ok false
  else do
    let vs ← m.rangeVertices
    allM m.vIsManifold vs

/-- `SurfaceMesh::isOriented`, surface_mesh.cpp:402-408. -/
def meshIsOriented : Res Bool := do
  let es ← m.rangeEdges
  allM (fun e => .ok (m.isManifold e && m.isOriented e)) es

/-- `getVertexIndices`, `getFaceIndices`, surface_mesh.cpp:466-474, 521-529. -/
def getVertexIndices : Res (ℕ → ℕ) := m.rangeVertices.map number
def getFaceIndices : Res (ℕ → ℕ) := m.rangeFaces.map number

/-- `getFaceVertexList`, surface_mesh.cpp:646-660; `f.adjacentVertices()` gives `he.vertex()` along the face
(halfedge_element_types.ipp:422-445). -/
def getFaceVertexList : Res (List (List ℕ)) := do
  let vInd ← m.getVertexIndices
  let fs ← m.rangeFaces
  fs.foldlM (fun result f => do
    let hs ← m.faceHalfedges f
    .ok (result ++ [hs.map (fun h => vInd (m.heVertex h))])) []

/-- The loop filling `iHeInFace`, surface_mesh.cpp:560-568. -/
def placeInFace (fs : List ℕ) : Res (ℕ → ℕ) :=
  fs.foldlM (fun p f => do
    let hs ← m.faceHalfedges f
    .ok (hs.foldl (fun (s : (ℕ → ℕ) × ℕ) he => (upd s.1 he s.2, s.2 + 1)) (p, 0)).1) (fun _ => 0)

/-- The entry of `thisTwin` for a halfedge, surface_mesh.cpp:578-585. -/
def twinEntry (faceInd place : ℕ → ℕ) (he : ℕ) : ℕ × ℕ :=
  if m.isBoundary (m.heEdge he) then (INV, INV)
  else (faceInd (m.heFace (m.heSibling he)), place (m.heSibling he))

/-- One face in the loop building the twins, surface_mesh.cpp:572-587: the row has as many entries as the polygon, and
writing past its end or to a row that does not exist is out of bounds. -/
def twinRow (polys : List (List ℕ)) (faceInd place : ℕ → ℕ) (twins : List (List (ℕ × ℕ))) (f : ℕ) : Res (List (List (ℕ × ℕ))) := do
  let hs ← m.faceHalfedges f
  let iF := faceInd f
  if ¬ iF < twins.length ∨ ¬ iF < polys.length then .error .ub
  else if (polys.getD iF []).length < hs.length then .error .ub
  else .ok (twins.set iF (hs.map (m.twinEntry faceInd place) ++
    List.replicate ((polys.getD iF []).length - hs.length) (0, 0)))

/-- `toManifoldMesh`, surface_mesh.cpp:551-590. -/
def toManifoldMesh : Res Mesh := do
  let b ← m.meshIsManifold
  if !b then .error .throw
  else do
    let b ← m.meshIsOriented
    if !b then .error .throw
    else do
      let polys ← m.getFaceVertexList
      let faceInd ← m.getFaceIndices
      let fs ← m.rangeFaces
      let place ← m.placeInFace fs
      let twins ← fs.foldlM (m.twinRow polys faceInd place) (List.replicate m.nF [])
      Mesh.fromTwins polys twins

end GC.GMesh
