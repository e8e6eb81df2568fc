import Mathlib.Data.Matrix.Mul
import Mathlib.LinearAlgebra.Matrix.Notation
import Verif.MeshCollapse
import Verif.Embedded
import Verif.Dijkstra

/-! # Quadric error simplification (quadric_error_simplification.cpp)

Modelled: `Quadric`, and `quadricErrorSimplify` without the final `mesh.compress()` (see C19). The loop is written for any type of costs with a
linear order, any type of quadrics and any operations on them (`QOps`), so that it covers rounded arithmetic without NaN; `realOps` are the
operations over the reals. The `MutationManager` has a geometry and no policies; its constraints are a function `may` of mesh and edge (see C44).
`mm.collapseEdge(e, p)` is then `collapseEdgeTriangular` and a write to the positions (mutation_manager.cpp:207-247). `inputVertexPositions`
and `vertexPositions` are the same storage (vertex_position_geometry.cpp:21). `pop` is any priority queue (`Dij.IsPop`). -/

namespace GC

/-! ### Quadrics -/

/-- `Quadric`, quadric_error_simplification.h:13-30. -/
structure Quadric where
  A : Matrix (Fin 3) (Fin 3) ℝ
  b : Fin 3 → ℝ
  c : ℝ

namespace Quadric

/-- `Quadric()`, quadric_error_simplification.cpp:6-10. -/
def zero : Quadric := ⟨0, 0, 0⟩

/-- `Quadric(Q1, Q2)`, `operator+=`, `operator+`, quadric_error_simplification.cpp:12-16, 24-32. -/
def add (P Q : Quadric) : Quadric := ⟨P.A + Q.A, P.b + Q.b, P.c + Q.c⟩

/-- `Quadric::cost`, quadric_error_simplification.cpp:20. -/
def cost (Q : Quadric) (v : Fin 3 → ℝ) : ℝ := v ⬝ᵥ (Q.A.mulVec v) + 2 * (Q.b ⬝ᵥ v) + Q.c

/-- `Quadric::optimalPoint`, quadric_error_simplification.cpp:22. `solve` is Eigen's `colPivHouseholderQr().solve()`. -/
def optimalPoint (solve : Matrix (Fin 3) (Fin 3) ℝ → (Fin 3 → ℝ) → (Fin 3 → ℝ)) (Q : Quadric) : Fin 3 → ℝ := -(solve Q.A Q.b)

/-- The quadric of a corner: the plane with normal `n` through `q`, quadric_error_simplification.cpp:53-58. -/
def ofPlane (n q : Fin 3 → ℝ) : Quadric :=
  let d := -(n ⬝ᵥ q)
  ⟨Matrix.vecMulVec n n, d • n, d * d⟩

end Quadric

/-- `toEigen`, quadric_error_simplification.cpp:40-44. -/
def V3.toEigen (v : V3) : Fin 3 → ℝ := ![v.x, v.y, v.z]

/-- The operations that the loop needs. `far c d` is the test `abs(c - d) > 1e-8`, `fin` and `finP` are the tests `isfinite`. -/
structure QOps (R Q X : Type) where
  add : Q → Q → Q
  opt : Q → X
  cost : Q → X → R
  far : R → R → Bool
  fin : R → Bool
  finP : X → Bool

open Classical in
/-- The operations over the reals. -/
noncomputable def realOps (solve : Matrix (Fin 3) (Fin 3) ℝ → (Fin 3 → ℝ) → (Fin 3 → ℝ)) : QOps ℝ Quadric (Fin 3 → ℝ) where
  add := Quadric.add
  opt := Quadric.optimalPoint solve
  cost := Quadric.cost
  far c d := decide (1e-8 < |c - d|)
  fin _ := true
  finP _ := true

/-- The variables of the loop: the mesh, the positions, `Q`, `edgesToCheck`. -/
structure QState (R Q X : Type) where
  m : Mesh
  pos : ℕ → X
  qd : ℕ → Q
  queue : List (R × ℕ)

namespace Mesh
variable {R Q X : Type} [LinearOrder R]

/-- The quadric of an edge, quadric_error_simplification.cpp:67, 92, 106. -/
def edgeQuadric (O : QOps R Q X) (m : Mesh) (qd : ℕ → Q) (e : ℕ) : Q := O.add (qd (m.heVertex (eHalfedge e))) (qd (m.tip (eHalfedge e)))

/-- The cost of an edge, quadric_error_simplification.cpp:67-69, 106-108. -/
def edgeCost (O : QOps R Q X) (m : Mesh) (qd : ℕ → Q) (e : ℕ) : R :=
  let Qe := m.edgeQuadric O qd e
  O.cost Qe (O.opt Qe)

/-- `edgesToCheck.push(…)` for a list of edges, quadric_error_simplification.cpp:66-71 and 105-110. -/
def pushCosts (O : QOps R Q X) (m : Mesh) (qd : ℕ → Q) (q : List (R × ℕ)) (es : List ℕ) : List (R × ℕ) :=
  es.foldl (fun q e => (m.edgeCost O qd e, e) :: q) q

/-- The entry `(c, e)` taken from the queue, quadric_error_simplification.cpp:80-110, after the test against `tol`. -/
def simplifyEdge (O : QOps R Q X) (may : Mesh → ℕ → Bool) (s : QState R Q X) (c : R) (e : ℕ) : Res (QState R Q X) :=
  if !O.fin c then .ok s
  else if ¬ s.m.heLive (eHalfedge e) then .ok s
  else
    let Qe := s.m.edgeQuadric O s.qd e
    let p := O.opt Qe
    if O.far c (O.cost Qe p) then .ok s
    else if !O.finP p then .ok s
    else if !may s.m e then .ok s
    else do
      let (m', v) ← s.m.collapseEdgeTriangular e
      if v = INV then .ok { s with m := m' }
      else do
        let qd := Function.update s.qd v Qe
        let es ← m'.navVertexEdges v
        .ok ⟨m', Function.update s.pos v p, qd, m'.pushCosts O qd s.queue es⟩

/-- The loop, quadric_error_simplification.cpp:73-111. -/
def simplifyLoop (O : QOps R Q X) (may : Mesh → ℕ → Bool) (pop : List (R × ℕ) → Option ((R × ℕ) × List (R × ℕ))) (tol : R) :
    ℕ → QState R Q X → Res (QState R Q X)
  | 0, _ => .error .hang
  | fuel + 1, s => match pop s.queue with
    | none => .ok s
    | some ((c, e), q) =>
      if tol < c then .ok { s with queue := q }
      else match simplifyEdge O may { s with queue := q } c e with
        | .error x => .error x
        | .ok s => simplifyLoop O may pop tol fuel s

/-- The first queue and the loop, quadric_error_simplification.cpp:66-111. -/
def simplifyFrom (O : QOps R Q X) (may : Mesh → ℕ → Bool) (pop : List (R × ℕ) → Option ((R × ℕ) × List (R × ℕ))) (tol : R)
    (m : Mesh) (pos : ℕ → X) (qd : ℕ → Q) (fuel : ℕ) : Res (QState R Q X) := do
  let es ← m.rangeEdges
  simplifyLoop O may pop tol fuel ⟨m, pos, qd, m.pushCosts O qd [] es⟩

/-- `Q[v]` before the loop, quadric_error_simplification.cpp:48-60. -/
noncomputable def vertexQuadrics (m : Mesh) (pos : ℕ → V3) : Res (ℕ → Quadric) := do
  let N ← m.faceNormalsE pos
  let fs ← m.rangeFaces
  fs.foldlM (fun qd f => do
    let vs ← m.navFaceVertices f
    .ok (vs.foldl (fun qd v => Function.update qd v ((qd v).add (Quadric.ofPlane (N f).toEigen (pos v).toEigen))) qd)) (fun _ => Quadric.zero)

/-- `quadricErrorSimplify`, quadric_error_simplification.cpp:39-115, without `mesh.compress()`. The last number is the require count of the face
normals: line 50 requires them and nothing gives them back. -/
noncomputable def quadricErrorSimplify (solve : Matrix (Fin 3) (Fin 3) ℝ → (Fin 3 → ℝ) → (Fin 3 → ℝ)) (may : Mesh → ℕ → Bool)
    (pop : List (ℝ × ℕ) → Option ((ℝ × ℕ) × List (ℝ × ℕ))) (tol : ℝ) (m : Mesh) (pos : ℕ → V3) (fuel : ℕ) (req : ℤ) :
    Res (QState ℝ Quadric (Fin 3 → ℝ) × ℤ) := do
  let req := req + 1
  let qd ← m.vertexQuadrics pos
  let s ← simplifyFrom (realOps solve) may pop tol m (fun v => (pos v).toEigen) qd fuel
  .ok (s, req)

end Mesh
end GC
