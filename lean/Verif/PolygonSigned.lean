import Verif.PolygonHeat

/-! # Signed distance on polygon meshes with level set constraints (polygon_mesh_heat_solver.cpp)

Conventions as in `PolygonHeat`. The blocks of a matrix and of a vector are written down as functions of the positions in the list of the indices inside the set; that
`blockDecomposeSquare`, `decomposeVector` and `reassembleVector` deliver them is C37, and so is what the stacked matrices are. The member `laplaceMat` is the Laplacian. -/

namespace GC
open Classical Finset

namespace Mesh
variable (m : Mesh) (pos : ℕ → V3)

/-- The vector of a face before it is normalised, polygon_mesh_heat_solver.cpp:197-202: `Yf`. -/
def cornerSum (ind : ℕ → ℕ) (basis : ℕ → V3 × V3) (Xt : ℕ → ℂ) (vs : List ℕ) : V3 :=
  vs.foldl (fun Y v => (Y.add ((basis v).1.smul (Xt (ind v)).re)).add ((basis v).2.smul (Xt (ind v)).im)) ⟨0, 0, 0⟩

/-- Component `j` of a vector, `Yf[j]`. -/
def comp (u : V3) (j : ℕ) : ℝ := if j = 0 then u.x else if j = 1 then u.y else u.z

/-- The loop over the faces that averages and normalises, polygon_mesh_heat_solver.cpp:192-208; `none` if some vector is zero. Entries of `Y` that are not set are zero here. -/
noncomputable def unitFaceVectors (ind fInd : ℕ → ℕ) (basis : ℕ → V3 × V3) (Xt : ℕ → ℂ) : Res (Option (ℕ → ℝ)) := do
  let fs ← m.rangeFaces
  let l ← fs.mapM fun f => do
    let vs ← m.navFaceVertices f
    .ok (fInd f, cornerSum ind basis Xt vs)
  .ok (if ∃ p ∈ l, p.2.norm = 0 then none else
    some (l.foldl (fun Y p k => if k / 3 = p.1 then comp p.2 (k % 3) / p.2.norm else Y k) (fun _ => 0)))

/-- The integration in `computeSignedDistance` with the constraint `ZeroSet`, polygon_mesh_heat_solver.cpp:212-214 and 223-237, as a function of the vertex. -/
noncomputable def integrateZeroSet (S : LinSolver ℝ) (lam : ℝ) (curves : List (List ℕ)) (Y : ℕ → ℝ) : Res (ℕ → ℝ) := do
  let ind ← m.getVertexIndices
  let D ← m.polygonDivergenceMatrix pos
  let L ← m.polygonLaplacian pos lam
  let divYt := fun i => ∑ k ∈ range (3 * m.nF), D i k * Y k
  if ∃ c ∈ curves, ∃ v ∈ c, m.nV ≤ ind v then .error .ub else
    let setA := (List.range m.nV).filter fun k => ¬ ∃ c ∈ curves, ∃ v ∈ c, ind v = k
    let x := S setA.length (fun i j => L (setA.getD i 0) (setA.getD j 0)) (fun i => divYt (setA.getD i 0))
    .ok fun v => if ind v ∈ setA then x (setA.idxOf (ind v)) else 0

/-- The pairs of indices that the constraint `Multiple` sets equal, polygon_mesh_heat_solver.cpp:239-252. -/
def levelPairs (ind : ℕ → ℕ) (curves : List (List ℕ)) : List (ℕ × ℕ) :=
  curves.flatMap fun c => match c with
    | [] => []
    | v :: l => l.map fun w => (ind v, ind w)

/-- The matrix of the constraints, polygon_mesh_heat_solver.cpp:248-254: `A`. -/
def levelMatrix (ps : List (ℕ × ℕ)) (r j : ℕ) : ℝ := (if j = (ps.getD r (0, 0)).1 then 1 else 0) + (if j = (ps.getD r (0, 0)).2 then -1 else 0)

/-- The stacked matrix, polygon_mesh_heat_solver.cpp:255-258: `LHS`. -/
def saddle (V : ℕ) (L A : ℕ → ℕ → ℝ) (i j : ℕ) : ℝ :=
  if i < V then (if j < V then L i j else A (j - V) i) else if j < V then A (i - V) j else 0

/-- The integration in `computeSignedDistance` with the constraint `Multiple`, polygon_mesh_heat_solver.cpp:212-214 and 238-265, as a function of the vertex. -/
noncomputable def integrateMultiple (S : LinSolver ℝ) (lam : ℝ) (curves : List (List ℕ)) (Y : ℕ → ℝ) : Res (Option (ℕ → ℝ)) := do
  let ind ← m.getVertexIndices
  let D ← m.polygonDivergenceMatrix pos
  let L ← m.polygonLaplacian pos lam
  let divYt := fun i => ∑ k ∈ range (3 * m.nF), D i k * Y k
  let ps := levelPairs ind curves
  if ∃ p ∈ ps, m.nV ≤ p.1 ∨ m.nV ≤ p.2 then .error .ub else do
    let soln := S (m.nV + ps.length) (saddle m.nV L (levelMatrix ps)) (fun i => if i < m.nV then divYt i else 0)
    let shift ← averageOnCurves pos ind curves soln
    .ok (shift.map fun s v => soln (ind v) - s)

end Mesh
end GC
