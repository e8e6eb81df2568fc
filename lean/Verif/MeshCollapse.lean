import Verif.MeshContract
import Verif.MeshRemoveFace
import Verif.Nav

/-! # collapseEdgeTriangular (model) -/

namespace GC
namespace Mesh

/-- The test in the loops over the paths from the tip of `heA0` to its tail, manifold_surface_mesh.cpp:1067-1069 and
1137-1139. -/
def pinchTest (m : Mesh) (a0 he1 he2 : ℕ) : Bool :=
  decide (¬ (m.heNext a0 = he1 ∧ m.heNext he1 = he2) ∧
    ¬ (twin (m.heNext (twin he1)) = a0 ∧ twin (m.heNext (twin he2)) = he1) ∧ m.tip he2 = m.heVertex a0)

/-- The loops over the paths of two halfedges, manifold_surface_mesh.cpp:1065-1074 and 1135-1145: `true` if the
function returns the null vertex. -/
def pinchLoop (m : Mesh) (a0 : ℕ) : List ℕ → Res Bool
  | [] => .ok false
  | he1 :: t => match m.outgoingHalfedges (m.tip he1) with
    | .error x => .error x
    | .ok l => if l.any (m.pinchTest a0 he1) then .ok true else pinchLoop m a0 t

/-- Is the edge part of a 'pinch' triangle? manifold_surface_mesh.cpp:1065-1074 and 1135-1145. -/
def isPinch (m : Mesh) (a0 : ℕ) : Res Bool :=
  match m.outgoingHalfedges (m.tip a0) with
  | .error x => .error x
  | .ok l => pinchLoop m a0 l

/-- `if (!v.isBoundary()) vHalfedgeArr[v] = h;` -/
def setIfInner (m : Mesh) (v h : ℕ) : Mesh := if m.vIsBoundary v then m else { m with vHalfedge := upd m.vHalfedge v h }

/-- The writes at a boundary edge, manifold_surface_mesh.cpp:1100-1119. `outs` are the halfedges leaving the
tail, `b0prev` is the halfedge before the exterior halfedge. -/
def collapseBdyWrites (m : Mesh) (a0 : ℕ) (outs : List ℕ) (b0prev : ℕ) : Mesh :=
  let a1 := m.heNext a0
  let c2 := twin (m.heNext a1)
  let c0 := m.heNext c2
  let m1 := ({ m with
    heVertex := writeAll m.heVertex outs (m.heVertex a1),
    heNext := upd (upd (upd m.heNext (m.heNext c0) a1) a1 c0) b0prev (m.heNext (twin a0)),
    heFace := upd m.heFace a1 (m.heFace c0) } : Mesh).setIfInner (m.heVertex c0) c0
  { m1 with fHalfedge := upd (upd m1.fHalfedge (m.heFace c0) c0) (m.heFace (twin a0)) (m.heNext (twin a0)) }

/-- The rest of the boundary case, manifold_surface_mesh.cpp:1076-1128. -/
def collapseBdyGo (m : Mesh) (a0 : ℕ) : Res (Mesh × ℕ) :=
  let a1 := m.heNext a0
  match m.navIncoming (m.heVertex a1) with
  | .error x => .error x
  | .ok inc => match inc.find? (fun h => ¬ m.heIsInterior h) with
    | none => .error .ub
    | some b0prev => match m.outgoingHalfedges (m.heVertex a0) with
      | .error x => .error x
      | .ok outs =>
        .ok (((((m.collapseBdyWrites a0 outs b0prev).deleteEdgeBundle (heEdge a0)).deleteEdgeBundle
          (heEdge (m.heNext a1))).deleteVertex (m.heVertex a0)).deleteFace (m.heFace a0), m.heVertex a1)

/-- The boundary case, manifold_surface_mesh.cpp:1054-1129. The null vertex is `INV`. -/
def collapseBdy (m : Mesh) (h : ℕ) : Res (Mesh × ℕ) :=
  match m.vDegree (m.heVertex h) with
  | .error x => .error x
  | .ok d =>
    let a0 := if d = 2 then m.heNext (m.heNext h) else h
    if m.heNext (m.heNext (m.heNext (twin a0))) = twin a0 then .ok (m, INV)
    else match m.isPinch a0 with
      | .error x => .error x
      | .ok true => .ok (m, INV)
      | .ok false => m.collapseBdyGo a0

/-- The writes at an interior edge with a tail of degree more than three, manifold_surface_mesh.cpp:1172-1200. -/
def collapseBigWrites (m : Mesh) (a0 : ℕ) (outs : List ℕ) : Mesh :=
  let a1 := m.heNext a0
  let b0 := twin a0
  let b2 := m.heNext (m.heNext b0)
  let c2 := twin (m.heNext a1)
  let c0 := m.heNext c2
  let d1 := twin (m.heNext b0)
  let d2 := m.heNext d1
  let d0 := m.heNext d2
  (((({ m with
    heVertex := writeAll m.heVertex outs (m.heVertex b0),
    heNext := upd (upd (upd (upd m.heNext d0 b2) b2 d2) (m.heNext c0) a1) a1 c0,
    heFace := upd (upd m.heFace b2 (m.heFace d0)) a1 (m.heFace c0),
    fHalfedge := upd (upd m.fHalfedge (m.heFace c0) c0) (m.heFace d0) d0 } : Mesh).setIfInner
      (m.heVertex b0) a1).setIfInner (m.heVertex c0) c0).setIfInner (m.heVertex d1) b2)

/-- The writes at an interior edge with a tail of degree three, manifold_surface_mesh.cpp:1233-1248. -/
def collapseThreeWrites (m : Mesh) (a0 : ℕ) : Mesh :=
  let a1 := m.heNext a0
  let b0 := twin a0
  let b2 := m.heNext (m.heNext b0)
  let c2 := twin (m.heNext a1)
  let c0 := m.heNext c2
  (((({ m with
    heNext := upd (upd (upd m.heNext a1 c0) c0 b2) b2 a1,
    heFace := upd (upd m.heFace b2 (m.heFace c0)) a1 (m.heFace c0),
    fHalfedge := upd m.fHalfedge (m.heFace c0) c0 } : Mesh).setIfInner
      (m.heVertex b0) a1).setIfInner (m.heVertex c0) c0).setIfInner (m.heVertex (m.heNext c0)) b2)

/-- The deletions at an interior edge, manifold_surface_mesh.cpp:1203-1208 and 1251-1256; `m` is the mesh
before the writes, `w` after them. -/
def collapseDelete (m w : Mesh) (a0 : ℕ) : Mesh :=
  (((((w.deleteEdgeBundle (heEdge a0)).deleteEdgeBundle (heEdge (m.heNext (twin a0)))).deleteEdgeBundle
    (heEdge (m.heNext (m.heNext a0)))).deleteVertex (m.heVertex a0)).deleteFace (m.heFace a0)).deleteFace (m.heFace (twin a0))

/-- The interior case after the choice of the halfedge, manifold_surface_mesh.cpp:1134-1265. -/
def collapseIntGo (m : Mesh) (a0 : ℕ) : Res (Mesh × ℕ) :=
  match m.isPinch a0 with
  | .error x => .error x
  | .ok true => .ok (m, INV)
  | .ok false => match m.vDegree (m.heVertex a0) with
    | .error x => .error x
    | .ok d =>
      if 3 < d then match m.outgoingHalfedges (m.heVertex a0) with
        | .error x => .error x
        | .ok outs => .ok (collapseDelete m (m.collapseBigWrites a0 outs) a0, m.heVertex (twin a0))
      else if d = 3 then .ok (collapseDelete m (m.collapseThreeWrites a0) a0, m.heVertex (twin a0))
      else .error .throw

/-- `ManifoldSurfaceMesh::collapseEdgeTriangular`, manifold_surface_mesh.cpp:1040-1268. The null vertex is `INV`. -/
def collapseEdgeTriangular (m : Mesh) (e : ℕ) : Res (Mesh × ℕ) :=
  let h := eHalfedge e
  if ¬ m.fIsTriangle (m.heFace h) then .error .throw
  else if ¬ (m.eIsBoundary e ∨ m.fIsTriangle (m.heFace (twin h))) then .error .throw
  else if m.eIsBoundary e then m.collapseBdy h
  else if m.vIsBoundary (m.heVertex h) ∧ m.vIsBoundary (m.heVertex (twin h)) then .ok (m, INV)
  else m.collapseIntGo (if m.vIsBoundary (m.heVertex h) then twin h else h)

end Mesh
end GC
