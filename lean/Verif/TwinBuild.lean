import Verif.MeshBuild

/-! # The constructor of `ManifoldSurfaceMesh` from polygons and twins (manifold_surface_mesh.cpp:262-442)

`createdHalfedges` is keyed by the position of a side: face and place in the face.  As in `Verif/MeshBuild.lean`,
`none` stands for a missing entry and for `INVALID_IND`.  Safety checks are on. -/

namespace GC.Mesh

/-- The index of a halfedge, manifold_surface_mesh.cpp:327-343; `key` is the position of the twin. -/
def findHeAt (s : PolySt) (key : ℕ × ℕ) (tail tip : ℕ) : Res (Mesh × ℕ) :=
  match s.look key with
  | none => do
    let (m, h) ← s.m.getNewEdgeTriple false
    .ok ({ m with
      heNext := upd (upd m.heNext h INV) (twin h) INV
      heVertex := upd (upd m.heVertex h tail) (twin h) tip
      heFace := upd (upd m.heFace h INV) (twin h) INV }, h)
  | some t => .ok (s.m, twin t)

/-- One side of a face, manifold_surface_mesh.cpp:311-355; `prev = none` in the first round. -/
def addSideAt (poly : List ℕ) (tw : List (ℕ × ℕ)) (iFace : ℕ) (s : PolySt × Option ℕ) (i : ℕ) : Res (PolySt × Option ℕ) :=
  let tail := poly.getD i 0
  let tip := poly.getD ((i + 1) % poly.length) 0
  if tail = tip then .error .throw
  else if s.1.look (iFace, i) ≠ none then .error .throw
  else do
    let (m, h) ← findHeAt s.1 (tw.getD i (0, 0)) tail tip
    let m := { m with heFace := upd m.heFace h iFace, vHalfedge := upd m.vHalfedge tail h }
    let m := match s.2 with
      | none => { m with fHalfedge := upd m.fHalfedge iFace h }
      | some p => { m with heNext := upd m.heNext p h }
    .ok (⟨m, fun k => if k = (iFace, i) then some h else s.1.look k⟩, some h)

/-- One face, manifold_surface_mesh.cpp:302-358; `firstHeInd` is `fHalfedgeArr[iFace]`. -/
def addPolyAt (s : PolySt) (p : (List ℕ × List (ℕ × ℕ)) × ℕ) : Res PolySt :=
  if p.1.1.length ≠ p.1.2.length then .error .throw
  else do
    let (s, prev) ← (List.range p.1.1.length).foldlM (addSideAt p.1.1 p.1.2 p.2) (s, none)
    match prev with
    | none => .error .ub
    | some q => .ok { s with m := { s.m with heNext := upd s.m.heNext q (s.m.fHalfedge p.2) } }

/-- The capacities, manifold_surface_mesh.cpp:429-437.  Unlike the constructor from polygons alone, the capacity of
the edges is not set. -/
def setCapsAt (m : Mesh) : Mesh :=
  { m with nVCap := m.nV, nHeCap := m.nHe, nFCap := m.nF + m.nBL,
           nVFill := m.nV, nHeFill := m.nHe, nFFill := m.nF, nBLFill := m.nBL }

/-- `ManifoldSurfaceMesh(polygons, twins)`, manifold_surface_mesh.cpp:262-442. If `INVALID_IND` itself occurs as an
index, the vertex count wraps to zero and the first access to `vHalfedgeArr` is out of bounds (lines 282 and 347). -/
def fromTwins (polys : List (List ℕ)) (twins : List (List (ℕ × ℕ))) : Res Mesh := do
  if polys.length ≠ twins.length then .error .throw
  else if polys.any (fun p => p.length < 3) then .error .throw
  else
    let nV := polys.flatten.foldl max 0 + 1
    if INV < nV then .error .ub
    else if INV ≤ nV ∨ INV ≤ polys.length then .error .oom
    else
      let s ← (polys.zip twins).zipIdx.foldlM addPolyAt ⟨empty nV polys.length, fun _ => none⟩
      let m := s.m
      let _ ← (List.range m.nHe).foldlM (checkBdy m) (fun _ => false)
      let m ← (List.range m.nHe).foldlM resolve { m with nInt := m.nHe }
      .ok m.setCapsAt

end GC.Mesh
