import Verif.PolygonHeat
import Verif.Tangent
import Verif.SurfacePoint

/-! # The heat method for geodesic distance (heat_method_distance.cpp)

Conventions as in `PolygonHeat`: vectors are functions of the index, `S` is the linear solver. The mesh has implicit twins and the option `useRobustLaplacian` is off, so that
`getMesh()` and `getGeom()` are the mesh and the geometry themselves. `len` are the edge lengths, `nan` the value of the vectors of exterior halfedges. -/

namespace GC
open Classical Finset

/-- The lambda `baryDist`, heat_method_distance.cpp:127-136; `l` are the three edge lengths. -/
noncomputable def baryDist (b1 b2 : V3) (l : ℝ × ℝ × ℝ) : ℝ :=
  let bVec := b2.sub b1
  let d2 := 0 + l.1 * l.1 * bVec.x * bVec.y + l.2.1 * l.2.1 * bVec.y * bVec.z + l.2.2 * l.2.2 * bVec.z * bVec.x
  let d2 := if ¬ d2 ≤ 0 then 0 else d2
  Real.sqrt (-d2)

namespace Mesh
variable (m : Mesh) (len : ℕ → ℝ)

/-- The mean edge length and `shortTime`, heat_method_distance.cpp:43-49. -/
noncomputable def heatTime (tCoef : ℝ) : Res ℝ := do
  let es ← m.rangeEdges
  let meanEdgeLength := es.foldl (fun s e => s + len e) 0 / m.nE
  .ok (tCoef * meanEdgeLength * meanEdgeLength)

/-- `heatOp`, heat_method_distance.cpp:53-62. -/
noncomputable def heatOp (tCoef : ℝ) : Res (ℕ → ℕ → ℝ) := do
  let t ← m.heatTime len tCoef
  let M ← m.vertexLumpedMassMatrix len
  let L ← m.cotanLaplacian len
  .ok fun i j => M i j + t * L i j

/-- `Ls`, heat_method_distance.cpp:65-69. -/
noncomputable def poissonOp : Res (ℕ → ℕ → ℝ) := do
  let L ← m.cotanLaplacian len
  .ok fun i j => L i j + 1e-6 * (if i = j then 1 else 0)

/-- The normalised gradient of a face with the halfedges `hs`, heat_method_distance.cpp:194-200: `gradUDir`. -/
noncomputable def gradDir (vec : ℕ → V2) (ind : ℕ → ℕ) (heat : ℕ → ℝ) (hs : List ℕ) : V2 :=
  (hs.foldl (fun (g : V2) he => g.add ((vec (m.heNext he)).rotate90.smul (heat (ind (m.heVertex he))))) ⟨0, 0⟩).normalizeCutoff 0

/-- The loop over the faces in `computeDistanceRHS`, heat_method_distance.cpp:191-207: `divergenceVec`. -/
noncomputable def heatDivergence (nan : V2) (heat : ℕ → ℝ) : Res (ℕ → ℝ) := do
  let w ← m.halfedgeCotanWeights len
  let vec ← m.halfedgeVectorsInFace len nan
  let ind ← m.getVertexIndices
  let fs ← m.rangeFaces
  let l ← fs.mapM fun f => do
    let hs ← m.navFaceHalfedges f
    .ok (hs.flatMap fun he =>
      let val := w he * (vec he).dot (m.gradDir vec ind heat hs)
      [(ind (m.heVertex he), val), (ind (m.heVertex (twin he)), -val)])
  .ok (accum (fun p => p.1) (fun p => p.2) l.flatten)

/-- `computeDistanceRHS`, heat_method_distance.cpp:180-219. -/
noncomputable def computeDistanceRHS (S : LinSolver ℝ) (nan : V2) (tCoef : ℝ) (rhs : ℕ → ℝ) : Res (ℕ → ℝ) := do
  let H ← m.heatOp len tCoef
  let div ← m.heatDivergence len nan (S m.nV H rhs)
  let P ← m.poissonOp len
  .ok (S m.nV P div)

/-- One pass of the loop over the sources that builds `rhs`, heat_method_distance.cpp:110-120: the vertices and the values that are added there. -/
def sourceEntries : SPoint → List (ℕ × ℝ)
  | .face f c =>
    let he := m.fHalfedge f
    [(m.heVertex he, c.x), (m.heVertex (m.heNext he), c.y), (m.heVertex (m.heNext (m.heNext he)), c.z)]
  | _ => []

/-- The inner loop over the halfedges of a face, heat_method_distance.cpp:143-162: what is added to `distDiffAtSource` and `weightSum`. A face with more than three
sides makes the code read `targetP[3]`. -/
noncomputable def sourceShift (ind : ℕ → ℕ) (dist : ℕ → ℝ) : SPoint → Res (ℝ × ℝ)
  | .face f c => do
    let he0 := m.fHalfedge f
    let l := (len (heEdge he0), len (heEdge (m.heNext he0)), len (heEdge (m.heNext (m.heNext he0))))
    let hs ← m.navFaceHalfedges f
    match hs with
    | [h0, h1, h2] =>
      let d0 := (dist (ind (m.heVertex h0)) - baryDist c ⟨1, 0, 0⟩ l) * c.x
      let d1 := (dist (ind (m.heVertex h1)) - baryDist c ⟨0, 1, 0⟩ l) * c.y
      let d2 := (dist (ind (m.heVertex h2)) - baryDist c ⟨0, 0, 1⟩ l) * c.z
      .ok (d0 + d1 + d2, c.x + c.y + c.z)
    | _ => .error .ub
  | _ => .ok (0, 0)

/-- `computeDistance`, heat_method_distance.cpp:100-178, as a function of the vertex; `none` where the code divides by zero. The right-hand side is `rhs.toVector()`. -/
noncomputable def computeHeatDistance (S : LinSolver ℝ) (nan : V2) (tCoef : ℝ) (sources : List SPoint) : Res (Option (ℕ → ℝ)) := do
  let ind ← m.getVertexIndices
  let rhs := accum (fun p => ind p.1) (fun p => p.2) (sources.flatMap fun p => m.sourceEntries (p.inSomeFace m))
  let dist ← m.computeDistanceRHS len S nan tCoef rhs
  let ds ← sources.mapM fun p => m.sourceShift len ind dist (p.inSomeFace m)
  let distDiffAtSource := (ds.map (·.1)).sum
  let weightSum := (ds.map (·.2)).sum
  .ok (if weightSum = 0 then none else some fun v => dist (ind v) + -(distDiffAtSource / weightSum))

end Mesh
end GC
