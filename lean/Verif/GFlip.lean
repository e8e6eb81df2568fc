import Verif.GNav

/-!
# Edge flips on a general mesh

`SurfaceMesh::flip`, `src/surface/surface_mesh.cpp:848-928`, without implicit twins (the branch for
manifold meshes is in `Verif.MeshOps`).
-/

namespace GC.GMesh

/-- The writes of `flip`, surface_mesh.cpp:887-925, given the six halfedges. -/
def flipAt (m : GMesh) (ha1 ha2 ha3 hb1 hb2 hb3 : ℕ) : GMesh :=
  let va := m.heVertex ha1
  let vb := m.heVertex hb1
  let vc := m.heVertex ha3
  let vd := m.heVertex hb3
  let fa := m.heFace ha1
  let fb := m.heFace hb1
  let m := m.removeFromVertexLists ha1
  let m := m.removeFromVertexLists hb1
  let m := { m with vHalfedge := if m.vHalfedge va = ha1 then upd m.vHalfedge va hb2 else m.vHalfedge }
  let m := { m with vHalfedge := if m.vHalfedge vb = hb1 then upd m.vHalfedge vb ha2 else m.vHalfedge }
  let m := { m with
    fHalfedge := upd (upd m.fHalfedge fa ha1) fb hb1
    heNext := upd (upd (upd (upd (upd (upd m.heNext ha1 hb3) hb3 ha2) ha2 ha1) hb1 ha3) ha3 hb2) hb2 hb1
    heVertex := upd (upd m.heVertex ha1 vc) hb1 vd
    heFace := upd (upd m.heFace ha3 fb) hb3 fa }
  let m := m.addToVertexLists ha1
  m.addToVertexLists hb1

/-- `SurfaceMesh::flip`, surface_mesh.cpp:848-928; the first argument bounds the depth of the recursion
at line 869. -/
def flipRec : ℕ → GMesh → ℕ → Bool → Res (GMesh × Bool)
  | 0, _, _, _ => .error .hang
  | n + 1, m, e, preventSelfEdges =>
    if m.isBoundary e then .ok (m, false)
    else
      let ha1 := m.eHalfedge e
      let ha2 := m.heNext ha1
      let ha3 := m.heNext ha2
      if m.heNext ha3 ≠ ha1 then .ok (m, false)
      else
        let hb1 := m.heSibling ha1
        let hb2 := m.heNext hb1
        let hb3 := m.heNext hb2
        if m.heNext hb3 ≠ hb1 then .ok (m, false)
        else if m.heSibling hb1 ≠ ha1 then .ok (m, false)
        else if ha2 = hb1 ∨ hb2 = ha1 then .ok (m, false)
        else if m.heOrient ha1 = m.heOrient hb1 then do
          let m ← m.invertOrientation (m.heFace ha1)
          let (m, flipResult) ← flipRec n m e preventSelfEdges
          let m ← m.invertOrientation (m.heFace ha1)
          .ok (m, flipResult)
        else if preventSelfEdges then do
          let vs ← m.adjacentVertices (m.heVertex ha3)
          if vs.any (fun v => v == m.heVertex hb3) then .ok (m, false)
          else .ok (m.flipAt ha1 ha2 ha3 hb1 hb2 hb3, true)
        else .ok (m.flipAt ha1 ha2 ha3 hb1 hb2 hb3, true)

/-- With room for two calls (`C78` shows that it is enough). -/
def flip (m : GMesh) (e : ℕ) (preventSelfEdges : Bool) : Res (GMesh × Bool) := flipRec 2 m e preventSelfEdges

end GC.GMesh
