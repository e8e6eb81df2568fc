import Verif.Stats
import Verif.Delaunay

/-! # Intrinsic quantities and operators (intrinsic_geometry_interface.cpp, edge_length_geometry.ipp)

Areas, angles, curvatures, cotangent weights, Laplacians, mass matrices and the operators of discrete exterior
calculus, for meshes with implicit twins. Lengths are real numbers. The `GC_SAFETY_ASSERT`s that faces are triangular
are left out; the theorems assume triangles. Quantities that the code first requires are arguments or computed first
(the caching is C31). A nested loop over mesh elements is the loop over the list of all pairs it goes through. -/

namespace GC
open Classical

/-- The loop `data[x] = f(x)` on data `d`. -/
noncomputable def assign {α : Type} (d : ℕ → α) (f : ℕ → α) (l : List ℕ) : ℕ → α :=
  l.foldl (fun d x => Function.update d x (f x)) d

/-- The loop `data[key(x)] += val(x)` on data initialised with 0. -/
noncomputable def accum {β : Type} (key : β → ℕ) (val : β → ℝ) (l : List β) : ℕ → ℝ :=
  l.foldl (fun d x => Function.update d (key x) (d (key x) + val x)) (fun _ => 0)

/-- The pairs a nested loop `for (a : l) for (b : g(a))` goes through. -/
def nested (g : ℕ → Res (List ℕ)) : List ℕ → Res (List (ℕ × ℕ))
  | [] => .ok []
  | a :: l => do
    let bs ← g a
    let r ← nested g l
    .ok (bs.map (fun b => (a, b)) ++ r)

/-- `Eigen::Triplet`. -/
abbrev Triplet (α : Type) := ℕ × ℕ × α

/-- The entry (i, j) of a matrix made with `setFromTriplets`: duplicates are summed. -/
noncomputable def entry {α : Type} [AddCommMonoid α] (l : List (Triplet α)) (i j : ℕ) : α :=
  (l.map (fun t => if t.1 = i ∧ t.2.1 = j then t.2.2 else 0)).sum

/-- `Eigen::SparseMatrix(rows, cols)` and `setFromTriplets`; a triplet outside of the matrix is undefined behaviour. -/
noncomputable def setFromTriplets {α : Type} [AddCommMonoid α] (rows cols : ℕ) (l : List (Triplet α)) : Res (ℕ → ℕ → α) :=
  if ∀ t ∈ l, t.1 < rows ∧ t.2.1 < cols then .ok (entry l) else .error .ub

/-- `x.asDiagonal()`. -/
noncomputable def diagonal (x : ℕ → ℝ) (i j : ℕ) : ℝ := if i = j then x i else 0

/-- `clamp`, utilities.h:84-88. -/
noncomputable def clampR (val low high : ℝ) : ℝ := if val > high then high else if val < low then low else val

namespace Mesh
variable (m : Mesh) (len : ℕ → ℝ)

/-! ## Areas -/

/-- `computeFaceAreas`, intrinsic_geometry_interface.cpp:57-84; the loop body is `faceArea`. -/
noncomputable def faceAreas : Res (ℕ → ℝ) := m.rangeFaces.map (assign (fun _ => 0) (m.faceArea len))

/-- `computeVertexDualAreas`, intrinsic_geometry_interface.cpp:90-101. -/
noncomputable def vertexDualAreas : Res (ℕ → ℝ) := do
  let A ← m.faceAreas len
  let fs ← m.rangeFaces
  let l ← nested m.navFaceVertices fs
  .ok (accum (fun p => p.2) (fun p => A p.1 / 3) l)

/-- `EdgeLengthGeometry::vertexDualArea`, edge_length_geometry.ipp:29-36. -/
noncomputable def vertexDualArea (v : ℕ) : Res ℝ := do
  let fs ← m.navVertexFaces v
  .ok ((fs.foldl (fun area f => area + m.faceArea len f) 0) / 3)

/-! ## Angles and curvatures -/

/-- The body of the loop in `computeCornerAngles`, intrinsic_geometry_interface.cpp:111-128;
`EdgeLengthGeometry::cornerAngle`, edge_length_geometry.ipp:39-56. -/
noncomputable def cornerAngle (c : ℕ) : ℝ :=
  let heA := c
  let heOpp := m.heNext heA
  let heB := m.heNext heOpp
  let lOpp := len (heEdge heOpp)
  let lA := len (heEdge heA)
  let lB := len (heEdge heB)
  let q := (lA * lA + lB * lB - lOpp * lOpp) / (2 * lA * lB)
  Real.arccos (clampR q (-1) 1)

/-- `computeCornerAngles`, intrinsic_geometry_interface.cpp:106-129. -/
noncomputable def cornerAngles : Res (ℕ → ℝ) := m.rangeInteriorHalfedges.map (assign (fun _ => 0) (m.cornerAngle len))

/-- `computeVertexAngleSums`, intrinsic_geometry_interface.cpp:135-142. -/
noncomputable def vertexAngleSums : Res (ℕ → ℝ) := do
  let ca ← m.cornerAngles len
  let cs ← m.rangeInteriorHalfedges
  .ok (accum m.heVertex ca cs)

/-- `computeCornerScaledAngles`, intrinsic_geometry_interface.cpp:148-163. -/
noncomputable def cornerScaledAngles : Res (ℕ → ℝ) := do
  let ca ← m.cornerAngles len
  let vs ← m.vertexAngleSums len
  let cs ← m.rangeInteriorHalfedges
  .ok (assign (fun _ => 0) (fun c =>
    if m.vIsBoundary (m.heVertex c) then Real.pi / vs (m.heVertex c) * ca c
    else 2 * Real.pi / vs (m.heVertex c) * ca c) cs)

/-- `computeVertexGaussianCurvatures`, intrinsic_geometry_interface.cpp:169-179. -/
noncomputable def vertexGaussianCurvatures : Res (ℕ → ℝ) := do
  let sums ← m.vertexAngleSums len
  let vs ← m.rangeVertices
  .ok (vs.foldl (fun d v => if ¬ m.vIsBoundary v then Function.update d v (2 * Real.pi - sums v) else d) (fun _ => 0))

/-- `EdgeLengthGeometry::vertexGaussianCurvature`, edge_length_geometry.ipp:80-93; the corners at a vertex are its
outgoing interior halfedges (halfedge_element_types.ipp:122-124, 197-199). -/
noncomputable def vertexGaussianCurvature (v : ℕ) : Res ℝ :=
  if m.vIsBoundary v then .ok 0 else do
    let cs ← navList m.vNext (fun i => decide (m.heIsInterior i)) (m.vHalfedge v) (m.nHeFill + 2)
    .ok (cs.foldl (fun k c => k - m.cornerAngle len c) (2 * Real.pi))

/-- `computeFaceGaussianCurvatures`, intrinsic_geometry_interface.cpp:184-201. -/
noncomputable def faceGaussianCurvatures : Res (ℕ → ℝ) := do
  let sa ← m.cornerScaledAngles len
  let fs ← m.rangeFaces
  .ok (assign (fun _ => 0) (fun f =>
    let angleDefect := -Real.pi
    let h := m.fHalfedge f
    angleDefect + sa h + sa (m.heNext h) + sa (m.heNext (m.heNext h))) fs)

/-! ## Weights and Laplacians -/

/-- `computeHalfedgeCotanWeights`, intrinsic_geometry_interface.cpp:206-228. -/
noncomputable def halfedgeCotanWeights : Res (ℕ → ℝ) := do
  let A ← m.faceAreas len
  let hs ← m.rangeInteriorHalfedges
  .ok (assign (fun _ => 0) (fun he =>
    let lij := len (heEdge he)
    let ljk := len (heEdge (m.heNext he))
    let lki := len (heEdge (m.heNext (m.heNext he)))
    (-lij * lij + ljk * ljk + lki * lki) / (4 * A (m.heFace he)) / 2) hs)

/-- `computeEdgeCotanWeights`, intrinsic_geometry_interface.cpp:233-257; the sum over the interior halfedges of an
edge starts at 0. -/
noncomputable def edgeCotanWeights : Res (ℕ → ℝ) := do
  let A ← m.faceAreas len
  let es ← m.rangeEdges
  let l ← nested m.navEdgeInterior es
  .ok (accum (fun p => p.1) (fun p =>
    let he := p.2
    let lij := len (heEdge he)
    let ljk := len (heEdge (m.heNext he))
    let lki := len (heEdge (m.heNext (m.heNext he)))
    (-lij * lij + ljk * ljk + lki * lki) / (4 * A (m.heFace he)) / 2) l)

/-- `computeCotanLaplacian`, intrinsic_geometry_interface.cpp:422-446. -/
noncomputable def cotanLaplacian : Res (ℕ → ℕ → ℝ) := do
  let w ← m.edgeCotanWeights len
  let ind ← m.getVertexIndices
  let es ← m.rangeEdges
  setFromTriplets m.nV m.nV (es.flatMap (fun e =>
    let he := eHalfedge e
    let iVTail := ind (m.heVertex he)
    let iVHead := ind (m.heVertex (m.heNext he))
    [(iVTail, iVTail, w e), (iVHead, iVHead, w e), (iVTail, iVHead, -w e), (iVHead, iVTail, -w e)]))

/-- `computeCrouzeixRaviartLaplacian`, intrinsic_geometry_interface.cpp:586-614. -/
noncomputable def crouzeixRaviartLaplacian : Res (ℕ → ℕ → ℝ) := do
  let w ← m.halfedgeCotanWeights len
  let ind ← m.getEdgeIndices
  let fs ← m.rangeFaces
  let l ← nested m.navFaceHalfedges fs
  setFromTriplets m.nE m.nE (l.flatMap (fun p =>
    let heA := m.heNext p.2
    let heB := m.heNext heA
    let i := ind (heEdge heA)
    let j := ind (heEdge heB)
    let weight := 4 * w p.2
    [(i, j, -weight), (j, i, -weight), (i, i, weight), (j, j, weight)]))

/-! ## Mass matrices -/

/-- `computeVertexLumpedMassMatrix`, intrinsic_geometry_interface.cpp:452-464. -/
noncomputable def vertexLumpedMassMatrix : Res (ℕ → ℕ → ℝ) := do
  let A ← m.vertexDualAreas len
  let vs ← m.rangeVertices
  .ok (diagonal (vs.foldl (fun (s : (ℕ → ℝ) × ℕ) v => (Function.update s.1 s.2 (A v), s.2 + 1)) (fun _ => 0, 0)).1)

/-- `computeVertexGalerkinMassMatrix`, intrinsic_geometry_interface.cpp:470-502. -/
noncomputable def vertexGalerkinMassMatrix : Res (ℕ → ℕ → ℝ) := do
  let A ← m.faceAreas len
  let ind ← m.getVertexIndices
  let fs ← m.rangeFaces
  setFromTriplets m.nV m.nV (fs.flatMap (fun f =>
    let area := A f
    let he := m.fHalfedge f
    let a := ind (m.heVertex he)
    let b := ind (m.heVertex (m.heNext he))
    let c := ind (m.heVertex (m.heNext (m.heNext he)))
    [(a, a, area / 6), (a, b, area / 12), (a, c, area / 12),
     (b, b, area / 6), (b, c, area / 12), (b, a, area / 12),
     (c, c, area / 6), (c, a, area / 12), (c, b, area / 12)]))

/-- `computeFaceGalerkinMassMatrix`, intrinsic_geometry_interface.cpp:507-519. -/
noncomputable def faceGalerkinMassMatrix : Res (ℕ → ℕ → ℝ) := do
  let A ← m.faceAreas len
  let ind ← m.getFaceIndices
  let fs ← m.rangeFaces
  setFromTriplets m.nF m.nF (fs.map (fun f => (ind f, ind f, A f)))

/-- `computeCrouzeixRaviartMassMatrix`, intrinsic_geometry_interface.cpp:620-633; the faces at an edge are those of its
interior halfedges (halfedge_element_types.ipp:377-379). -/
noncomputable def crouzeixRaviartMassMatrix : Res (ℕ → ℕ → ℝ) := do
  let A ← m.faceAreas len
  let ind ← m.getEdgeIndices
  let es ← m.rangeEdges
  let l ← nested m.navEdgeInterior es
  setFromTriplets m.nE m.nE (l.map (fun p => (ind p.1, ind p.1, A (m.heFace p.2) / 3)))

/-! ## Discrete exterior calculus -/

/-- `computeDECOperators`, intrinsic_geometry_interface.cpp:682-772: `hodge0`, `hodge1`, `hodge2`, `d0`, `d1`. The
inverses of the diagonal matrices are not modelled. -/
structure DEC where
  hodge0 : ℕ → ℕ → ℝ
  hodge1 : ℕ → ℕ → ℝ
  hodge2 : ℕ → ℕ → ℝ
  d0 : ℕ → ℕ → ℝ
  d1 : ℕ → ℕ → ℝ

/-- The loop `x[ind[e]] = val(e)` on an Eigen vector. -/
noncomputable def fillVector (ind : ℕ → ℕ) (val : ℕ → ℝ) (l : List ℕ) : ℕ → ℝ :=
  l.foldl (fun d e => Function.update d (ind e) (val e)) (fun _ => 0)

/-- `computeDECOperators`, intrinsic_geometry_interface.cpp:682-772. -/
noncomputable def decOperators : Res DEC := do
  let dual ← m.vertexDualAreas len
  let w ← m.edgeCotanWeights len
  let A ← m.faceAreas len
  let vInd ← m.getVertexIndices
  let eInd ← m.getEdgeIndices
  let fInd ← m.getFaceIndices
  let vs ← m.rangeVertices
  let es ← m.rangeEdges
  let fs ← m.rangeFaces
  let d0 ← setFromTriplets m.nE m.nV (es.flatMap (fun e =>
    let he := eHalfedge e
    [(eInd e, vInd (m.heVertex (m.heNext he)), (1 : ℝ)), (eInd e, vInd (m.heVertex he), -1)]))
  let l ← nested m.navFaceHalfedges fs
  let d1 ← setFromTriplets m.nF m.nE (l.map (fun p =>
    (fInd p.1, eInd (heEdge p.2), if p.2 = eHalfedge (heEdge p.2) then (1 : ℝ) else -1)))
  .ok ⟨diagonal (fillVector vInd (fun v => dual v / 1) vs), diagonal (fillVector eInd w es),
    diagonal (fillVector fInd (fun f => 1 / A f) fs), d0, d1⟩

end Mesh
end GC
