import Verif.HeatDistance

/-! # The vector heat method (vector_heat_method.cpp)

Conventions as in `HeatDistance`. `shortTime` and the scalar heat operator are those of the heat method for distance: `heatTime` is vector_heat_method.cpp:15-21 and `heatOp` is
vector_heat_method.cpp:24 and 34-40, term for term. -/

namespace GC
open Classical Finset

/-- As `accum`, for complex vectors. -/
noncomputable def accumC {β : Type} (key : β → ℕ) (val : β → ℂ) (l : List β) : ℕ → ℂ :=
  l.foldl (fun d x => Function.update d (key x) (d (key x) + val x)) (fun _ => 0)

/-- `Vector2::fromComplex`, vector2.h:20. -/
def V2.ofC (z : ℂ) : V2 := ⟨z.re, z.im⟩

namespace Mesh
variable (m : Mesh) (len : ℕ → ℝ)

/-- The vertices, weights and values visited by the loops over the sources, vector_heat_method.cpp:183-212 and 271-303. -/
noncomputable def sourceLoop {α : Type} (sources : List (SPoint × α)) : List (ℕ × ℝ × α) :=
  sources.flatMap fun s => (m.sourceEntries (s.1.inSomeFace m)).map fun p => (p.1, p.2, s.2)

/-- `extendScalar`, vector_heat_method.cpp:171-227, by vertex; `none` where the result is not a number. -/
noncomputable def extendScalar (S : LinSolver ℝ) (tCoef : ℝ) (sources : List (SPoint × ℝ)) : Res (ℕ → Option ℝ) :=
  if sources = [] then .ok fun _ => none else do
    let H ← m.heatOp len tCoef
    let ind ← m.getVertexIndices
    let l := m.sourceLoop sources
    let dataSol := S m.nV H (accum (fun p => ind p.1) (fun p => p.2.1 * p.2.2) l)
    let indicatorSol := S m.nV H (accum (fun p => ind p.1) (fun p => p.2.1) l)
    .ok fun v => if indicatorSol (ind v) = 0 then none else some (dataSol (ind v) / indicatorSol (ind v))

/-- `vectorOp`, vector_heat_method.cpp:49-53. -/
noncomputable def vectorHeatOp (tCoef : ℝ) : Res (ℕ → ℕ → ℂ) := do
  let t ← m.heatTime len tCoef
  let M ← m.vertexLumpedMassMatrix len
  let L ← m.vertexConnectionLaplacian len
  .ok fun i j => (M i j : ℂ) + t * L i j

/-- The end of `transportTangentVectors`, vector_heat_method.cpp:313-335, for the solution `sol`. -/
noncomputable def transportEnd (S : LinSolver ℝ) (tCoef : ℝ) (ind : ℕ → ℕ) (sol : ℕ → ℂ) : List (SPoint × V2) → Res (ℕ → Option V2)
  | [s] => .ok fun v => if sol (ind v) = 0 then none else some (V2.ofC (sol (ind v) / ‖sol (ind v)‖ * s.2.norm))
  | sources => do
    let interpMags ← m.extendScalar len S tCoef (sources.map fun s => (s.1, s.2.norm))
    .ok fun v => if sol (ind v) = 0 then none else (interpMags v).map fun x => (V2.ofC (sol (ind v))).normalize.smul x

/-- `transportTangentVectors`, vector_heat_method.cpp:243-340, by vertex; `none` where the result is not a number. A source of length zero has no direction: its entries of the right-hand side,
and with them the solution, are not numbers. -/
noncomputable def transportTangentVectors (S : LinSolver ℝ) (SC : LinSolver ℂ) (tCoef : ℝ) (sources : List (SPoint × V2)) : Res (ℕ → Option V2) :=
  if sources = [] then .ok fun _ => none else do
    let V ← m.vectorHeatOp len tCoef
    let ind ← m.getVertexIndices
    if ∃ s ∈ sources, s.2.norm = 0 then .ok fun _ => none else
      m.transportEnd len S tCoef ind (SC m.nV V (accumC (fun p => ind p.1) (fun p => (p.2.1 : ℂ) * p.2.2.normalize.toC) (m.sourceLoop sources))) sources

end Mesh
end GC
