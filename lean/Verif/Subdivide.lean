import Verif.MeshInsert
import Verif.MeshInsertFace
import Verif.MeshRemoveEdge
import Verif.Embedded

/-! # Subdivision into quadrilaterals (subdivide.cpp:6-180)

`linearSubdivide` and `catmullClarkSubdivide` differ only in the positions they compute beforehand.  The data `VertexData<bool>
isOrigVert(mesh, true)` etc. are total functions that are `true` where nothing has been written, as new entries of these containers get
the default value.  Ranges keep the end index they had when the loop began, but test on the current mesh whether an element exists
(element_iterators.ipp:9-47).  The final `compress()` (see C19) and `refreshQuantities()` (see C31) are left out. -/

namespace GC

/-- The variables of the loops: the mesh, `newPositions`, `isOrigVert`, `isOrigEdge`, `isOrigFace`. -/
structure SubSt (P : Type) where
  m : Mesh
  pos : ℕ → P
  origV : ℕ → Bool
  origE : ℕ → Bool
  origF : ℕ → Bool

namespace Mesh
variable {P : Type}

/-- One edge, subdivide.cpp:30-46 and 125-141. -/
def splitEdgeStep (splitE : ℕ → P) (s : SubSt P) (e : ℕ) : Res (SubSt P) :=
  if ¬ s.m.heLive (eHalfedge e) then .ok s
  else if !s.origE e then .ok s
  else do
    let (m', he) ← s.m.insertVertexAlongEdge e
    let v := m'.heVertex he
    let origV := Function.update s.origV v false
    let origE := Function.update (Function.update s.origE (heEdge he) false) (heEdge (m'.heNext (twin he))) false
    if origV (m'.heVertex (twin he)) && origV (m'.heVertex (twin (m'.heNext (twin he)))) then
      .ok { s with m := m', origV := origV, origE := origE, pos := Function.update s.pos v (splitE e) }
    else .error .throw

/-- One of the spokes from the new vertex, subdivide.cpp:70-79 and 165-174.  Where no merge is possible the code prints a message and goes on. -/
def mergeStep (s : SubSt P) (he : ℕ) : Res (SubSt P) :=
  if s.origV (s.m.heVertex he) then do
    let (m', f) ← s.m.removeEdge (heEdge he)
    if f = INV then .ok { s with m := m' }
    else .ok { s with m := m', origF := Function.update s.origF f false }
  else .ok s

/-- One face, subdivide.cpp:50-80 and 145-175. -/
def splitFaceStep (splitF : ℕ → P) (s : SubSt P) (f : ℕ) : Res (SubSt P) :=
  if ¬ s.m.fLive f then .ok s
  else if !s.origF f then .ok s
  else do
    let (m', v) ← s.m.insertVertex f
    let fs ← m'.navVertexFaces v
    let origF := fs.foldl (fun o f => Function.update o f false) s.origF
    let inc ← m'.navIncoming v
    inc.foldlM mergeStep { s with m := m', origV := Function.update s.origV v false, pos := Function.update s.pos v (splitF f), origF := origF }

/-- The loop over the edges, subdivide.cpp:27-46 and 122-141. -/
def splitEdges (splitE : ℕ → P) (s : SubSt P) : Res (SubSt P) := (List.range s.m.nEFill).foldlM (splitEdgeStep splitE) s

/-- The loop over the faces, subdivide.cpp:48-80 and 143-175. -/
def splitFaces (splitF : ℕ → P) (s : SubSt P) : Res (SubSt P) := (List.range s.m.nFFill).foldlM (splitFaceStep splitF) s

/-- Both loops. -/
def subdivideQuads (m : Mesh) (pos : ℕ → P) (splitE splitF : ℕ → P) : Res (SubSt P) := do
  let s ← splitEdges splitE ⟨m, pos, fun _ => true, fun _ => true, fun _ => true⟩
  splitFaces splitF s

/-- `splitFacePositions`, subdivide.cpp:13-20 and 93-100. -/
noncomputable def facePoints (m : Mesh) (pos : ℕ → V3) : Res (ℕ → V3) := do
  let fs ← m.rangeFaces
  assignM (fun _ => ⟨0, 0, 0⟩) (fun f => do
    let D ← m.fDegree f
    let vs ← m.navFaceVertices f
    .ok (vs.foldl (fun (p : V3) v => p.add ((pos v).sdiv D)) ⟨0, 0, 0⟩)) fs

/-- `splitEdgePositions` of `linearSubdivide`, subdivide.cpp:22-25. -/
noncomputable def edgePointsLinear (m : Mesh) (pos : ℕ → V3) : Res (ℕ → V3) :=
  m.rangeEdges.map (assign (fun _ => ⟨0, 0, 0⟩) (fun e =>
    ((pos (m.heVertex (eHalfedge e))).add (pos (m.tip (eHalfedge e)))).sdiv 2))

/-- `linearSubdivide`, subdivide.cpp:6-85, without the last three lines. -/
noncomputable def linearSubdivide (m : Mesh) (pos : ℕ → V3) : Res (SubSt V3) := do
  let splitF ← m.facePoints pos
  let splitE ← m.edgePointsLinear pos
  m.subdivideQuads pos splitE splitF

/-- `operator[]` of a `FaceData`, mesh_data.ipp:196-215.  The array has `nFacesCapacity()` places (halfedge_logic_templates.ipp:17), the
places of the boundary loops at the end of the face arrays are not among them (surface_mesh.ipp:25). -/
def readFaceData {α : Type} (m : Mesh) (d : ℕ → α) (f : ℕ) : Res α := if f < m.nFCap - m.nBLFill then .ok (d f) else .error .ub

/-- `splitEdgePositions` of `catmullClarkSubdivide`, subdivide.cpp:102-106. -/
noncomputable def edgePointsCC (m : Mesh) (splitF : ℕ → V3) : Res (ℕ → V3) := do
  let es ← m.rangeEdges
  assignM (fun _ => ⟨0, 0, 0⟩) (fun e => do
    let a ← m.readFaceData splitF (m.heFace (eHalfedge e))
    let b ← m.readFaceData splitF (m.heFace (twin (eHalfedge e)))
    .ok ((a.add b).sdiv 2)) es

/-- `newPositions` of the old vertices in `catmullClarkSubdivide`, subdivide.cpp:108-120. -/
noncomputable def vertexPointsCC (m : Mesh) (pos splitE splitF : ℕ → V3) : Res (ℕ → V3) := do
  let vs ← m.rangeVertices
  assignM (fun _ => ⟨0, 0, 0⟩) (fun v => do
    let D ← m.vDegree v
    let es ← m.navVertexEdges v
    let R := es.foldl (fun (R : V3) e => R.add ((splitE e).sdiv D)) ⟨0, 0, 0⟩
    let fs ← m.navVertexFaces v
    let Q := fs.foldl (fun (Q : V3) f => Q.add ((splitF f).sdiv D)) ⟨0, 0, 0⟩
    .ok (((Q.add (R.smul 2)).add ((pos v).smul (D - 3))).sdiv D)) vs

/-- `catmullClarkSubdivide`, subdivide.cpp:87-180, without the last three lines. -/
noncomputable def catmullClarkSubdivide (m : Mesh) (pos : ℕ → V3) : Res (SubSt V3) := do
  let splitF ← m.facePoints pos
  let splitE ← m.edgePointsCC splitF
  let newPos ← m.vertexPointsCC pos splitE splitF
  m.subdivideQuads newPos splitE splitF

end Mesh
end GC
