import Verif.Bff

/-! # Uniformization of disks (uniformize.cpp)

Vectors are functions of the index, `S` is the linear solver, blocks of matrices and vectors are selected by index lists as in `Bff`. Only `withEdgeFlips = false` is modelled; the output to
`std::cout` is left out. -/

namespace GC
open Classical Finset
namespace Mesh
variable (m : Mesh)

/-- One pass of the loop, uniformize.cpp:50-105, as the new edge lengths. `isInterior` (lines 38-46) takes the position in the vector for the id of a vertex. -/
noncomputable def uniformizeStep (S : LinSolver ℝ) (len : ℕ → ℝ) : Res (ℕ → ℝ) := do
  let L ← m.cotanLaplacian len
  let K ← m.vertexGaussianCurvatures len
  let ind ← m.getVertexIndices
  let vs ← m.rangeVertices
  let es ← m.rangeEdges
  let rhsVals := scatter ind (fun v => if ¬ m.vIsBoundary v then -K v else 0) (fun _ => 0) vs
  let iA := (List.range m.nV).filter fun i => decide (¬ m.vIsBoundary i)
  let iB := (List.range m.nV).filter fun i => !decide (¬ m.vIsBoundary i)
  let bcVals : ℕ → ℝ := fun _ => 0
  let combinedRHS : ℕ → ℝ := fun a => rhsVals (iA.getD a 0) - ∑ b ∈ range iB.length, L (iA.getD a 0) (iB.getD b 0) * bcVals b
  let Aresult : ℕ → ℝ := fun a => 0.5 * S iA.length (fun a b => L (iA.getD a 0) (iA.getD b 0)) combinedRHS a
  let result : ℕ → ℝ := fun i => if i ∈ iA then Aresult (iA.idxOf i) else bcVals (iB.idxOf i)
  let u : ℕ → ℝ := fun v => result (ind v)
  .ok (assign len (fun e => len e * Real.exp ((u (m.heVertex (eHalfedge e)) + u (m.heVertex (twin (eHalfedge e)))) / 2)) es)

/-- The loop, for any number of passes. -/
noncomputable def uniformizeLoop (S : LinSolver ℝ) : ℕ → (ℕ → ℝ) → Res (ℕ → ℝ)
  | 0, len => .ok len
  | n + 1, len => do
    let len' ← m.uniformizeStep S len
    uniformizeLoop S n len'

/-- `uniformizeDisk` without edge flips, uniformize.cpp:12-111. -/
noncomputable def uniformizeDisk (S : LinSolver ℝ) (len : ℕ → ℝ) : Res (ℕ → ℝ) := m.uniformizeLoop S 50 len

end Mesh
end GC
