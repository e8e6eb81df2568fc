import Verif.Tangent

/-! # Geometry from vertex positions (embedded_geometry_interface.cpp, extrinsic_geometry_interface.cpp, vertex_position_geometry.ipp)

For meshes with implicit twins, with real positions; the conventions are those of `Intrinsic`. The cached quantities are loops that fill the data
of all elements, the immediate ones are functions of one element. `e.isManifold()` is true and `sibling()` is `twin()` on these meshes
(halfedge_element_types.ipp:337, surface_mesh.ipp:41). For the operators for polygons (embedded_geometry_interface.cpp:361-999) see `Polygon`. -/

namespace GC
open Classical

/-- The loop `data[x] = g(x)` on data `d`, where computing `g(x)` loops over neighbours. -/
noncomputable def assignM {α : Type} (d : ℕ → α) (g : ℕ → Res α) (l : List ℕ) : Res (ℕ → α) :=
  l.foldlM (fun d x => do
    let y ← g x
    .ok (Function.update d x y)) d

namespace Mesh
variable (m : Mesh) (pos : ℕ → V3)

/-- `VertexPositionGeometry::edgeLength`, vertex_position_geometry.ipp:24-29; the body of the loop in
`EmbeddedGeometryInterface::computeEdgeLengths`, embedded_geometry_interface.cpp:46-48. -/
noncomputable def edgeLengthP (e : ℕ) : ℝ :=
  let he := eHalfedge e
  ((pos (m.heVertex he)).sub (pos (m.heVertex (m.heNext he)))).norm

/-- `EmbeddedGeometryInterface::computeEdgeLengths`, embedded_geometry_interface.cpp:42-49. -/
noncomputable def edgeLengthsE : Res (ℕ → ℝ) := m.rangeEdges.map (assign (fun _ => 0) (m.edgeLengthP pos))

/-- `VertexPositionGeometry::faceArea`, vertex_position_geometry.ipp:32-45. -/
noncomputable def faceAreaP (f : ℕ) : ℝ :=
  let he := m.fHalfedge f
  let pA := pos (m.heVertex he)
  let he := m.heNext he
  let pB := pos (m.heVertex he)
  let he := m.heNext he
  let pC := pos (m.heVertex he)
  0.5 * ((pB.sub pA).cross (pC.sub pA)).norm

/-- `EmbeddedGeometryInterface::computeFaceAreas`, embedded_geometry_interface.cpp:259-276. -/
noncomputable def faceAreasE : Res (ℕ → ℝ) := do
  let fs ← m.rangeFaces
  assignM (fun _ => 0) (fun f => do
    let hs ← m.navFaceHalfedges f
    let N := hs.foldl (fun N he => V3.add N ((pos (m.heVertex he)).cross (pos (m.heVertex (m.heNext he))))) ⟨0, 0, 0⟩
    .ok (0.5 * N.norm)) fs

/-- `VertexPositionGeometry::cornerAngle`, vertex_position_geometry.ipp:58-73. -/
noncomputable def cornerAngleP (c : ℕ) : ℝ :=
  let he := c
  let pA := pos (m.heVertex he)
  let he := m.heNext he
  let pB := pos (m.heVertex he)
  let he := m.heNext he
  let pC := pos (m.heVertex he)
  let q := (pB.sub pA).normalize.dot (pC.sub pA).normalize
  Real.arccos (clampR q (-1) 1)

/-- `EmbeddedGeometryInterface::computeCornerAngles`, embedded_geometry_interface.cpp:279-299. -/
noncomputable def cornerAnglesE : Res (ℕ → ℝ) := do
  let fs ← m.rangeFaces
  let l ← nested m.navFaceHalfedges fs
  .ok (l.foldl (fun d p =>
    let he := p.2
    let pA := pos (m.heVertex he)
    let heNext := m.heNext he
    let pB := pos (m.heVertex heNext)
    let pC := pos (m.heVertex (m.heNext heNext))
    let q := (pC.sub pB).normalize.dot (pA.sub pB).normalize
    let angle := Real.arccos (clampR q (-1) 1)
    Function.update d heNext angle) (fun _ => 0))

/-- `VertexPositionGeometry::halfedgeCotanWeight`, vertex_position_geometry.ipp:75-94. -/
noncomputable def halfedgeCotanWeightP (heI : ℕ) : ℝ :=
  if m.heIsInterior heI then
    let he := heI
    let pB := pos (m.heVertex he)
    let he := m.heNext he
    let pC := pos (m.heVertex he)
    let he := m.heNext he
    let pA := pos (m.heVertex he)
    let vecR := pB.sub pA
    let vecL := pC.sub pA
    let cotValue := vecR.dot vecL / (vecR.cross vecL).norm
    cotValue / 2
  else 0

/-- `EmbeddedGeometryInterface::computeHalfedgeCotanWeights`, embedded_geometry_interface.cpp:303-326. -/
noncomputable def halfedgeCotanWeightsE : Res (ℕ → ℝ) := do
  let hs ← m.rangeInteriorHalfedges
  .ok (assign (fun _ => 0) (fun heI =>
    let he := heI
    let pB := pos (m.heVertex he)
    let he := m.heNext he
    let pC := pos (m.heVertex he)
    let he := m.heNext he
    let pA := pos (m.heVertex he)
    let vecR := pB.sub pA
    let vecL := pC.sub pA
    let cotValue := vecR.dot vecL / (vecR.cross vecL).norm
    cotValue / 2) hs)

/-- `VertexPositionGeometry::edgeCotanWeight`, vertex_position_geometry.ipp:96-102. -/
noncomputable def edgeCotanWeightP (e : ℕ) : Res ℝ := do
  let hs ← m.navEdgeInterior e
  .ok (hs.foldl (fun sum he => sum + m.halfedgeCotanWeightP pos he) 0)

/-- `EmbeddedGeometryInterface::computeEdgeCotanWeights`, embedded_geometry_interface.cpp:330-357. -/
noncomputable def edgeCotanWeightsE : Res (ℕ → ℝ) := do
  let es ← m.rangeEdges
  assignM (fun _ => 0) (fun e => do
    let hs ← m.navEdgeInterior e
    .ok (hs.foldl (fun cotSum he =>
      let pB := pos (m.heVertex he)
      let he := m.heNext he
      let pC := pos (m.heVertex he)
      let he := m.heNext he
      let pA := pos (m.heVertex he)
      let vecR := pB.sub pA
      let vecL := pC.sub pA
      let cotValue := vecR.dot vecL / (vecR.cross vecL).norm
      cotSum + cotValue / 2) 0)) es

/-! ## Normals -/

/-- The loop in `computeFaceNormals` and `faceNormal`, with its `break`. -/
noncomputable def normalLoop : List ℕ → V3 → V3
  | [], normalSum => normalSum
  | heF :: l, normalSum =>
    let he := heF
    let pA := pos (m.heVertex he)
    let he := m.heNext he
    let pB := pos (m.heVertex he)
    let he := m.heNext he
    let pC := pos (m.heVertex he)
    let normalSum := normalSum.add ((pB.sub pA).cross (pC.sub pA))
    if m.heNext he = heF then normalSum else normalLoop l normalSum

/-- `VertexPositionGeometry::faceNormal`, vertex_position_geometry.ipp:105-127; the body of the loop in
`computeFaceNormals`, embedded_geometry_interface.cpp:85-108. -/
noncomputable def faceNormalP (f : ℕ) : Res V3 := do
  let hs ← m.navFaceHalfedges f
  let normalSum := m.normalLoop pos hs ⟨0, 0, 0⟩
  .ok normalSum.normalize

/-- `EmbeddedGeometryInterface::computeFaceNormals`, embedded_geometry_interface.cpp:80-109. -/
noncomputable def faceNormalsE : Res (ℕ → V3) := do
  let fs ← m.rangeFaces
  assignM (fun _ => ⟨0, 0, 0⟩) (m.faceNormalP pos) fs

/-- `EmbeddedGeometryInterface::computeVertexNormals`, embedded_geometry_interface.cpp:114-132; the corners at a vertex are its
outgoing interior halfedges (halfedge_element_types.ipp:122-124, 197-199). -/
noncomputable def vertexNormalsE : Res (ℕ → V3) := do
  let N ← m.faceNormalsE pos
  let ca ← m.cornerAnglesE pos
  let vs ← m.rangeVertices
  assignM (fun _ => ⟨0, 0, 0⟩) (fun v => do
    let cs ← navList m.vNext (fun i => decide (m.heIsInterior i)) (m.vHalfedge v) (m.nHeFill + 2)
    let normalSum := cs.foldl (fun s c => V3.add s (V3.lmul (ca c) (N (m.heFace c)))) ⟨0, 0, 0⟩
    .ok normalSum.normalize) vs

/-! ## Dihedral angles and mean curvature -/

/-- The body of the loop in `computeEdgeDihedralAngles`, embedded_geometry_interface.cpp:64-70; vertex_position_geometry.ipp:140-146. -/
noncomputable def dihedral (N : ℕ → V3) (e : ℕ) : ℝ :=
  let N1 := N (m.heFace (eHalfedge e))
  let N2 := N (m.heFace (twin (eHalfedge e)))
  let pTail := pos (m.heVertex (eHalfedge e))
  let pTip := pos (m.heVertex (m.heNext (eHalfedge e)))
  let edgeDir := (pTip.sub pTail).normalize
  Complex.arg ⟨N1.dot N2, edgeDir.dot (N1.cross N2)⟩

/-- `EmbeddedGeometryInterface::computeEdgeDihedralAngles`, embedded_geometry_interface.cpp:52-72. -/
noncomputable def edgeDihedralAnglesE : Res (ℕ → ℝ) := do
  let N ← m.faceNormalsE pos
  let es ← m.rangeEdges
  .ok (es.foldl (fun d e => if m.eIsBoundary e then d else Function.update d e (m.dihedral pos N e)) (fun _ => 0))

/-- `VertexPositionGeometry::edgeDihedralAngle`, vertex_position_geometry.ipp:134-147. -/
noncomputable def edgeDihedralAngleP (e : ℕ) : Res ℝ :=
  if m.eIsBoundary e then .ok 0 else do
    let N1 ← m.faceNormalP pos (m.heFace (eHalfedge e))
    let N2 ← m.faceNormalP pos (m.heFace (twin (eHalfedge e)))
    let pTail := pos (m.heVertex (eHalfedge e))
    let pTip := pos (m.heVertex (m.heNext (eHalfedge e)))
    let edgeDir := (pTip.sub pTail).normalize
    .ok (Complex.arg ⟨N1.dot N2, edgeDir.dot (N1.cross N2)⟩)

/-- `ExtrinsicGeometryInterface::computeVertexMeanCurvatures`, extrinsic_geometry_interface.cpp:28-53. -/
noncomputable def vertexMeanCurvaturesE : Res (ℕ → ℝ) := do
  let len ← m.edgeLengthsE pos
  let al ← m.edgeDihedralAnglesE pos
  let vs ← m.rangeVertices
  assignM (fun _ => 0) (fun v => do
    let hs ← m.navOutgoing v
    let meanCurvature := hs.foldl (fun s he => s + al (heEdge he) * len (heEdge he) / 2) 0
    .ok (meanCurvature / 2)) vs

/-- `VertexPositionGeometry::vertexMeanCurvature`, vertex_position_geometry.ipp:149-158. -/
noncomputable def vertexMeanCurvatureP (v : ℕ) : Res ℝ := do
  let hs ← m.navOutgoing v
  let meanCurvature ← hs.foldlM (fun s he => do
    let alpha ← m.edgeDihedralAngleP pos (heEdge he)
    .ok (s + alpha * m.edgeLengthP pos (heEdge he) / 2)) 0
  .ok (meanCurvature / 2)

/-- `ExtrinsicGeometryInterface::computePrincipalCurvatures`, extrinsic_geometry_interface.cpp:82-109; the dual areas and Gaussian curvatures
(intrinsic_geometry_interface.cpp:90-101, 135-142, 169-179) are computed from the embedded areas and angles. -/
noncomputable def principalCurvatures (which : ℕ) (dual H K : ℕ → ℝ) : Res (ℕ → ℝ) := do
  let vs ← m.rangeVertices
  .ok (assign (fun _ => 0) (fun v =>
    let A := dual v
    let H := H v / A
    let K := K v / A
    let c := Real.sqrt (max 0 (H * H - K))
    let k1 := H - c
    let k2 := H + c
    if which = 1 then min k1 k2 else max k1 k2) vs)

/-- `EmbeddedGeometryInterface::computeVertexDualMeanCurvatureNormals`, embedded_geometry_interface.cpp:226-249. -/
noncomputable def vertexDualMeanCurvatureNormalsE : Res (ℕ → V3) := do
  let w ← m.edgeCotanWeightsE pos
  let es ← m.rangeEdges
  .ok (es.foldl (fun d e =>
    let w := w e
    let vTail := m.heVertex (eHalfedge e)
    let vTip := m.heVertex (m.heNext (eHalfedge e))
    let pTail := pos vTail
    let pTip := pos vTip
    let d := Function.update d vTail ((d vTail).add ((V3.lmul w (pTail.sub pTip)).sdiv 2))
    Function.update d vTip ((d vTip).add ((V3.lmul w (pTip.sub pTail)).sdiv 2))) (fun _ => ⟨0, 0, 0⟩))

/-- `VertexPositionGeometry::vertexDualMeanCurvatureNormal`, vertex_position_geometry.ipp:203-211. -/
noncomputable def vertexDualMeanCurvatureNormalP (v : ℕ) : Res V3 := do
  let hs ← m.navOutgoing v
  hs.foldlM (fun hN he => do
    let w ← m.edgeCotanWeightP pos (heEdge he)
    .ok (V3.add hN ((V3.lmul w ((pos v).sub (pos (m.heVertex (m.heNext he))))).sdiv 2))) ⟨0, 0, 0⟩

/-! ## Tangent bases -/

/-- `EmbeddedGeometryInterface::computeFaceTangentBasis` for meshes with implicit twins, embedded_geometry_interface.cpp:137-180, for
triangles: `isTriangle()` ends the loop after its first step, which is at `f.halfedge()`. -/
noncomputable def faceTangentBasisE (nan : V2) : Res (ℕ → V3 × V3) := do
  let N ← m.faceNormalsE pos
  let len ← m.edgeLengthsE pos
  let vec ← m.halfedgeVectorsInFace len nan
  let fs ← m.rangeFaces
  .ok (assign (fun _ => (⟨0, 0, 0⟩, ⟨0, 0, 0⟩)) (fun f =>
    let N := N f
    let heF := m.fHalfedge f
    let eVec := (pos (m.heVertex (m.heNext heF))).sub (pos (m.heVertex heF))
    let eVec := eVec.removeComponent N
    let angle := (vec heF).arg
    let eVecX := eVec.rotateAround N (-angle)
    let basisXSum := V3.add ⟨0, 0, 0⟩ eVecX
    let basisX := basisXSum.normalize
    let basisY := N.cross basisX
    (basisX, basisY)) fs)

/-- `EmbeddedGeometryInterface::computeVertexTangentBasis` for meshes with implicit twins, embedded_geometry_interface.cpp:185-222. -/
noncomputable def vertexTangentBasisE : Res (ℕ → V3 × V3) := do
  let N ← m.vertexNormalsE pos
  let len ← m.edgeLengthsE pos
  let vec ← m.halfedgeVectorsInVertex len
  let vs ← m.rangeVertices
  assignM (fun _ => (⟨0, 0, 0⟩, ⟨0, 0, 0⟩)) (fun v => do
    let N := N v
    let hs ← m.navOutgoing v
    let basisXSum := hs.foldl (fun s he =>
      let eVec := (pos (m.heVertex (m.heNext he))).sub (pos (m.heVertex he))
      let eVec := eVec.removeComponent N
      let angle := (vec he).arg
      let eVecX := eVec.rotateAround N (-angle)
      V3.add s eVecX) ⟨0, 0, 0⟩
    let basisX := basisXSum.normalize
    let basisY := N.cross basisX
    .ok (basisX, basisY)) vs

end Mesh
end GC
