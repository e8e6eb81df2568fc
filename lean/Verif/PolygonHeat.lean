import Verif.PolygonConnection

/-! # The heat method on polygon meshes (polygon_mesh_heat_solver.cpp)

Vectors with an entry for each vertex are functions of the index, of which the first `nV` values count. `S n A b` stands for the result of a linear solver for
the system of size `n` with the matrix `A` and the right-hand side `b`; the theorems ask that it solves the systems that have a solution. Where the code divides
zero by zero and gets values that are not numbers, the model returns `none`. Members that are computed once and kept (`ensureHave…`) are computed where they are used.
`lam` is the stabilisation parameter of the geometry, `nan` the value of undefined planar vectors in the tangent bases. Meshes are those with implicit twins. -/

namespace GC
open Classical Finset

/-- A linear solver. -/
abbrev LinSolver (K : Type) := ℕ → (ℕ → ℕ → K) → (ℕ → K) → ℕ → K

/-- `x.minCoeff()` of a vector with `n` entries. -/
noncomputable def minCoeff (n : ℕ) (x : ℕ → ℝ) : ℝ := ((List.range n).map x).foldl min (x 0)

/-- The entries of a face in a vector with three entries for each face. -/
def rowV3 (Y : ℕ → ℝ) (f : ℕ) : V3 := ⟨Y (3 * f), Y (3 * f + 1), Y (3 * f + 2)⟩

/-- The loop that normalises the gradient, polygon_mesh_heat_solver.cpp:80-84; `none` if some gradient is zero. -/
noncomputable def unitRows (F : ℕ) (Y : ℕ → ℝ) : Option (ℕ → ℝ) :=
  if ∃ f < F, (rowV3 Y f).norm = 0 then none else some fun k => Y k / (rowV3 Y (k / 3)).norm

namespace Mesh
variable (m : Mesh) (pos : ℕ → V3)

/-- The constructor, polygon_mesh_heat_solver.cpp:6-25: `shortTime`. -/
noncomputable def shortTime (tCoef : ℝ) : Res ℝ := do
  let len ← m.edgeLengthsE pos
  let es ← m.rangeEdges
  let meanEdgeLength := es.foldl (fun s e => s + len e) 0 / m.nE
  .ok (tCoef * meanEdgeLength * meanEdgeLength)

/-- `ensureHaveScalarHeatSolver`, polygon_mesh_heat_solver.cpp:27-32: `heatOp`. -/
noncomputable def polygonHeatOp (tCoef lam : ℝ) : Res (ℕ → ℕ → ℝ) := do
  let t ← m.shortTime pos tCoef
  let M ← m.polygonVertexLumpedMassMatrix pos
  let L ← m.polygonLaplacian pos lam
  .ok fun i j => M i j + t * L i j

/-- `computeDistance`, polygon_mesh_heat_solver.cpp:59-99, as a function of the vertex. -/
noncomputable def computePolygonDistance (S : LinSolver ℝ) (tCoef lam : ℝ) (sourceVerts : List ℕ) : Res (Option (ℕ → ℝ)) :=
  if sourceVerts = [] then .error .throw else do
    let G ← m.polygonGradientMatrix pos
    let D ← m.polygonDivergenceMatrix pos
    let ind ← m.getVertexIndices
    if ∃ v ∈ sourceVerts, m.nV ≤ ind v then .error .ub else do
      let rho := accum ind (fun _ => 1) sourceVerts
      let H ← m.polygonHeatOp pos tCoef lam
      let X := S m.nV H rho
      let Y := fun k => ∑ j ∈ range m.nV, G k j * X j
      let L ← m.polygonLaplacian pos lam
      match unitRows m.nF Y with
      | none => .ok none
      | some Y =>
        let div := fun i => ∑ k ∈ range (3 * m.nF), -D i k * Y k
        let distances := S m.nV L div
        let shift := minCoeff m.nV distances
        .ok (some fun v => distances (ind v) - shift)

/-- `extendScalars`, polygon_mesh_heat_solver.cpp:101-122: the sources are entered at `getIndex()`, the result is read by the index among the live vertices;
`none` where the code divides by zero. -/
noncomputable def extendPolygonScalars (S : LinSolver ℝ) (tCoef lam : ℝ) (sources : List (ℕ × ℝ)) : Res (ℕ → Option ℝ) :=
  if sources = [] then .error .throw else do
    let H ← m.polygonHeatOp pos tCoef lam
    let ind ← m.getVertexIndices
    if ∃ s ∈ sources, m.nV ≤ s.1 then .error .ub else
      let rhsVals := sources.foldl (fun r s => Function.update r s.1 s.2) (fun _ => 0)
      let rhsOnes := sources.foldl (fun r s => Function.update r s.1 1) (fun _ => 0)
      let interpVals := S m.nV H rhsVals
      let interpOnes := S m.nV H rhsOnes
      .ok fun v => if interpOnes (ind v) = 0 then none else some (interpVals (ind v) / interpOnes (ind v))

/-- `ensureHaveVectorHeatSolver`, polygon_mesh_heat_solver.cpp:34-45: `vectorOp`. -/
noncomputable def polygonVectorOp (nan : V2) (tCoef lam : ℝ) : Res (ℕ → ℕ → ℂ) := do
  let t ← m.shortTime pos tCoef
  let M ← m.polygonVertexLumpedMassMatrix pos
  let L ← m.polygonVertexConnectionLaplacian pos nan lam
  .ok fun i j => (M i j : ℂ) + t * L i j

/-- The solution of the vector heat flow in `transportTangentVectors`, polygon_mesh_heat_solver.cpp:131-159: the sources are added up. -/
noncomputable def transportPolygonVectors (S : LinSolver ℂ) (nan : V2) (tCoef lam : ℝ) (sources : List (ℕ × V2)) : Res (ℕ → ℂ) :=
  if sources = [] then .error .throw else do
    let H ← m.polygonVectorOp pos nan tCoef lam
    let ind ← m.getVertexIndices
    if ∃ s ∈ sources, m.nV ≤ ind s.1 then .error .ub else
      let dirRHS := sources.foldl (fun r s => Function.update r (ind s.1) (r (ind s.1) + ⟨s.2.x, s.2.y⟩)) (fun _ => 0)
      .ok (S m.nV H dirRHS)

/-- The normal of a segment with the tangent `t` in the tangent space at a vertex, polygon_mesh_heat_solver.cpp:291-296: `n` is the normal and `b` the basis there. -/
def curveNormal (n : V3) (b : V3 × V3) (t : V3) : ℂ :=
  let tangent := (b.1.smul (b.1.dot t)).add (b.2.smul (b.2.dot t))
  let normal := n.cross tangent
  ⟨b.1.dot normal, b.2.dot normal⟩

/-- `buildSignedCurveSource`, polygon_mesh_heat_solver.cpp:272-300. For an empty curve `nNodes - 1` is the largest `size_t`, and `curve[0]` is read. -/
noncomputable def buildSignedCurveSource (ind : ℕ → ℕ) (normal : ℕ → V3) (basis : ℕ → V3 × V3) : List ℕ → (ℕ → ℂ) → Res (ℕ → ℂ)
  | [], _ => .error .ub
  | [_], X0 => .ok X0
  | a :: b :: l, X0 =>
    let tangent := (pos b).sub (pos a)
    let X0 := Function.update X0 (ind a) (X0 (ind a) + curveNormal (normal a) (basis a) tangent)
    let X0 := Function.update X0 (ind b) (X0 (ind b) + curveNormal (normal b) (basis b) tangent)
    buildSignedCurveSource ind normal basis (b :: l) X0

/-- The loop over the segments of a curve in `computeAverageValue`, polygon_mesh_heat_solver.cpp:310-321: `shift` and `totalLength`. -/
noncomputable def averageLoop (ind : ℕ → ℕ) (u : ℕ → ℝ) : List ℕ → ℝ × ℝ → Res (ℝ × ℝ)
  | [], _ => .error .ub
  | [_], s => .ok s
  | a :: b :: l, s =>
    let length := ((pos b).sub (pos a)).norm
    averageLoop ind u (b :: l) (s.1 + 0.5 * length * (u (ind a) + u (ind b)), s.2 + length)

/-- `computeAverageValue`, polygon_mesh_heat_solver.cpp:302-328; `none` where the code divides by zero. -/
noncomputable def averageOnCurves (ind : ℕ → ℕ) (curves : List (List ℕ)) (u : ℕ → ℝ) : Res (Option ℝ) := do
  let s ← curves.foldlM (fun s c => averageLoop pos ind u c s) (0, 0)
  .ok (if s.2 = 0 then none else some (s.1 / s.2))

/-- The heat flow in `computeSignedDistance`, polygon_mesh_heat_solver.cpp:180-190: `Xt`. -/
noncomputable def signedHeatFlow (S : LinSolver ℂ) (nan : V2) (tCoef lam : ℝ) (curves : List (List ℕ)) : Res (ℕ → ℂ) := do
  let ind ← m.getVertexIndices
  let basis ← m.vertexTangentBasisE pos
  let normal ← m.vertexNormalsE pos
  let X0 ← curves.foldlM (fun X c => buildSignedCurveSource pos ind normal basis c X) (fun _ => 0)
  if ∀ i < m.nV, X0 i = 0 then .error .throw else do
    let H ← m.polygonVectorOp pos nan tCoef lam
    .ok (S m.nV H X0)

/-- The integration in `computeSignedDistance` without constraint, polygon_mesh_heat_solver.cpp:212-222, as a function of the vertex; `Y` are the unit vectors in the faces. -/
noncomputable def integrateSigned (S : LinSolver ℝ) (lam : ℝ) (curves : List (List ℕ)) (Y : ℕ → ℝ) : Res (Option (ℕ → ℝ)) := do
  let ind ← m.getVertexIndices
  let D ← m.polygonDivergenceMatrix pos
  let L ← m.polygonLaplacian pos lam
  let divYt := fun i => ∑ k ∈ range (3 * m.nF), D i k * Y k
  let phi := S m.nV L divYt
  let shift ← averageOnCurves pos ind curves phi
  .ok (shift.map fun s v => phi (ind v) - s)

end Mesh
end GC
