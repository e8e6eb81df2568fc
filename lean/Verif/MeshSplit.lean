import Verif.MeshConnect
import Verif.MeshInsert

/-! # splitEdgeTriangular and triangulate (models) -/

namespace GC
namespace Mesh

/-- `ManifoldSurfaceMesh::splitEdgeTriangular`, manifold_surface_mesh.cpp:597-621. -/
def splitEdgeTriangular (m : Mesh) (e : ℕ) : Res (Mesh × ℕ) :=
  if ¬ m.fIsTriangle (m.heFace (eHalfedge e)) then .error .throw
  else if ¬ (m.eIsBoundary e ∨ m.fIsTriangle (m.heFace (twin (eHalfedge e)))) then .error .throw
  else match m.insertVertexAlongEdge e with
  | .error x => .error x
  | .ok (m1, he) =>
    match m1.connectVertices he (m1.heNext (m1.heNext he)) with
    | .error x => .error x
    | .ok (m2, _) =>
      if m2.heIsInterior (twin he) then
        let heFirst := m2.heNext (twin he)
        match m2.connectVertices heFirst (m2.heNext (m2.heNext heFirst)) with
        | .error x => .error x
        | .ok (m3, _) => .ok (m3, he)
      else .ok (m2, he)

/-- The loop of `triangulate`, manifold_surface_mesh.cpp:1801-1804, over the halfedges
`neighHalfedges[2], …, neighHalfedges[n-2]`. Returns the mesh and the faces appended. -/
def triangulateLoop (m : Mesh) (connectHe : ℕ) : List ℕ → Res (Mesh × List ℕ)
  | [] => .ok (m, [])
  | h :: t => match m.connectVertices connectHe h with
    | .error x => .error x
    | .ok (m1, he) => match triangulateLoop m1 he t with
      | .error x => .error x
      | .ok (m2, fs) => .ok (m2, m1.heFace (twin he) :: fs)

/-- `ManifoldSurfaceMesh::triangulate`, manifold_surface_mesh.cpp:1784-1808. -/
def triangulate (m : Mesh) (f : ℕ) : Res (Mesh × List ℕ) :=
  if m.faceIsBL f then .error .throw
  else if m.fIsTriangle f then .ok (m, [f])
  else match m.faceHalfedges f with
  | .error x => .error x
  | .ok neigh => match m.triangulateLoop (m.fHalfedge f) ((neigh.take (neigh.length - 1)).drop 2) with
    | .error x => .error x
    | .ok (m1, fs) => .ok (m1, f :: fs)

end Mesh
end GC
