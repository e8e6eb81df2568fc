import Verif.Intrinsic
import Verif.Vec

/-! # Tangent spaces, parallel transport and connection Laplacians (intrinsic_geometry_interface.cpp)

For meshes with implicit twins, with real lengths; the conventions are those of `Intrinsic`. `Vector2::undefined()` (NaN) is
an arbitrary value `nan`. -/

namespace GC
open Classical

namespace Mesh
variable (m : Mesh) (len : ℕ → ℝ) (nan : V2)

/-- `computeShapeLengthScale`, intrinsic_geometry_interface.cpp:262-271. -/
noncomputable def shapeLengthScale : Res ℝ := do
  let A ← m.faceAreas len
  let fs ← m.rangeFaces
  .ok (Real.sqrt (fs.foldl (fun s f => s + A f) 0))

/-- `computeMeshLengthScale`, intrinsic_geometry_interface.cpp:276-285. -/
noncomputable def meshLengthScale : Res ℝ := do
  let es ← m.rangeEdges
  .ok (es.foldl (fun s e => s + len e) 0 / m.nE)

/-- The body of the first loop of `computeHalfedgeVectorsInFace`, intrinsic_geometry_interface.cpp:297-329. -/
noncomputable def faceVectors (A : ℕ → ℝ) (d : ℕ → V2) (f : ℕ) : ℕ → V2 :=
  let heAB := m.fHalfedge f
  let heBC := m.heNext heAB
  let heCA := m.heNext heBC
  let lAB := len (heEdge heAB)
  let lBC := len (heEdge heBC)
  let lCA := len (heEdge heCA)
  let pB : V2 := ⟨lAB, 0⟩
  let tArea := A f
  let h := 2 * tArea / lAB
  let w := Real.sqrt (max 0 (lCA * lCA - h * h))
  let w := if lBC * lBC > lAB * lAB + lCA * lCA then w * -1 else w
  let pC : V2 := ⟨w, h⟩
  Function.update (Function.update (Function.update d heAB pB) heBC (pC.sub pB)) heCA pC.neg

/-- `computeHalfedgeVectorsInFace`, intrinsic_geometry_interface.cpp:291-336. -/
noncomputable def halfedgeVectorsInFace : Res (ℕ → V2) := do
  let A ← m.faceAreas len
  let fs ← m.rangeFaces
  let xs ← m.rangeExteriorHalfedges
  .ok (assign (fs.foldl (m.faceVectors len A) (fun _ => ⟨0, 0⟩)) (fun _ => nan) xs)

/-- The body of the loops in `computeTransportVectorsAcrossHalfedge` and `computeTransportVectorsAlongHalfedge`,
intrinsic_geometry_interface.cpp:349-357 and 404-412. -/
noncomputable def transport (vec : ℕ → V2) (d : ℕ → V2) (e : ℕ) : ℕ → V2 :=
  let heA := eHalfedge e
  let heB := twin heA
  let rot := ((vec heB).neg.div (vec heA)).normalize
  Function.update (Function.update d heA rot) heB rot.inv

/-- `computeTransportVectorsAcrossHalfedge`, intrinsic_geometry_interface.cpp:341-359. -/
noncomputable def transportVectorsAcrossHalfedge : Res (ℕ → V2) := do
  let vec ← m.halfedgeVectorsInFace len nan
  let es ← m.rangeEdges
  .ok (es.foldl (fun d e => if m.eIsBoundary e then d else transport vec d e) (fun _ => nan))

/-- The inner loop of `computeHalfedgeVectorsInVertex`, intrinsic_geometry_interface.cpp:382-389. -/
noncomputable def vertexVectors (sa : ℕ → ℝ) (firstHe : ℕ) : ℕ → (ℕ → V2) → ℝ → ℕ → Res (ℕ → V2)
  | 0, _, _, _ => .error .hang
  | n + 1, d, coordSum, currHe =>
    let d := Function.update d currHe ((V2.fromAngle coordSum).smul (len (heEdge currHe)))
    let coordSum := coordSum + sa currHe
    if ¬ m.heIsInterior currHe then .ok d else
      let currHe := twin (m.heNext (m.heNext currHe))
      if currHe ≠ firstHe then vertexVectors sa firstHe n d coordSum currHe else .ok d

/-- `computeHalfedgeVectorsInVertex`, intrinsic_geometry_interface.cpp:367-391. -/
noncomputable def halfedgeVectorsInVertex : Res (ℕ → V2) := do
  let sa ← m.cornerScaledAngles len
  let vs ← m.rangeVertices
  vs.foldlM (fun d v => m.vertexVectors len sa (m.vHalfedge v) (m.nHeFill + 1) d 0 (m.vHalfedge v)) (fun _ => ⟨0, 0⟩)

/-- `computeTransportVectorsAlongHalfedge`, intrinsic_geometry_interface.cpp:397-414. -/
noncomputable def transportVectorsAlongHalfedge : Res (ℕ → V2) := do
  let vec ← m.halfedgeVectorsInVertex len
  let es ← m.rangeEdges
  .ok (es.foldl (transport vec) (fun _ => ⟨0, 0⟩))

/-! ## Connection Laplacians -/

/-- The conversion of `-weight * rot` to `std::complex<double>`. -/
noncomputable def cplx (u : V2) : ℂ := ⟨u.x, u.y⟩

/-- `computeVertexConnectionLaplacian`, intrinsic_geometry_interface.cpp:525-545. -/
noncomputable def vertexConnectionLaplacian : Res (ℕ → ℕ → ℂ) := do
  let ind ← m.getVertexIndices
  let w ← m.edgeCotanWeights len
  let tr ← m.transportVectorsAlongHalfedge len
  let hs ← m.rangeHalfedges
  setFromTriplets m.nV m.nV (hs.flatMap (fun he =>
    let iTail := ind (m.heVertex he)
    let iTip := ind (m.heVertex (m.heNext he))
    let weight := w (heEdge he)
    let rot := tr (twin he)
    [(iTail, iTail, (weight : ℂ)), (iTail, iTip, cplx (rot.smul (-weight)))]))

/-- The body of the loop in `computeFaceConnectionLaplacian`, intrinsic_geometry_interface.cpp:556-576; `j` is an
`unsigned int` of 32 bits. -/
noncomputable def faceConnectionTriplets (ind : ℕ → ℕ) (tr : ℕ → V2) (f : ℕ) : Res (List (Triplet ℂ)) := do
  let hs ← m.navFaceHalfedges f
  let i := ind f
  let r := hs.foldl (fun (s : List (Triplet ℂ) × ℂ) he =>
    if ¬ m.heIsInterior (twin he) then s else
      let j := ind (m.heFace (twin he)) % 2 ^ 32
      let rot := tr (twin he)
      let weight : ℝ := 1
      (s.1 ++ [(i, j, cplx (rot.smul (-weight)))], s.2 + weight)) ([], 0)
  .ok (r.1 ++ [(i, i, r.2)])

/-- `computeFaceConnectionLaplacian`, intrinsic_geometry_interface.cpp:550-580. -/
noncomputable def faceConnectionLaplacian : Res (ℕ → ℕ → ℂ) := do
  let ind ← m.getFaceIndices
  let tr ← m.transportVectorsAcrossHalfedge len nan
  let fs ← m.rangeFaces
  let T ← fs.foldlM (fun T f => do
    let t ← m.faceConnectionTriplets ind tr f
    .ok (T ++ t)) []
  setFromTriplets m.nF m.nF T

/-- `computeCrouzeixRaviartConnectionLaplacian`, intrinsic_geometry_interface.cpp:639-673; `orientation()` is surface_mesh.ipp:51. -/
noncomputable def crouzeixRaviartConnectionLaplacian : Res (ℕ → ℕ → ℂ) := do
  let ind ← m.getEdgeIndices
  let w ← m.halfedgeCotanWeights len
  let A ← m.faceAreas len
  let fs ← m.rangeFaces
  let l ← nested m.navFaceHalfedges fs
  setFromTriplets m.nE m.nE (l.flatMap (fun p =>
    let he := p.2
    let heA := m.heNext he
    let heB := m.heNext heA
    let i := ind (heEdge heA)
    let j := ind (heEdge heB)
    let weight := 4 * w he
    let s : ℝ := if (heA % 2 = 0 ↔ heB % 2 = 0) then 1 else -1
    let lOpp := len (heEdge he)
    let lA := len (heEdge heB)
    let lB := len (heEdge heA)
    let cosTheta := (lA * lA + lB * lB - lOpp * lOpp) / (2 * lA * lB)
    let sinTheta := 2 * A p.1 / (lA * lB)
    let rot : ℂ := ⟨-cosTheta, sinTheta⟩
    [(i, i, (weight : ℂ)), (j, j, (weight : ℂ)), (i, j, -weight * rot * s), (j, i, -weight * starRingEnd ℂ rot * s)]))

end Mesh
end GC
