import Mathlib.Data.Matrix.Mul
import Mathlib.LinearAlgebra.Matrix.Notation
import Verif.Embedded
import Verif.Simplify

/-! # Operators on polygon meshes (polygon_mesh_helpers.cpp, embedded_geometry_interface.cpp:359-999)

For meshes with implicit twins, with real positions. A dynamic matrix is a `Matrix` over `Fin n`, where `n` is the number of sides of the face:
`f.degree()` counts the halfedges that `f.adjacentVertices()` goes through. Matrices that only depend on the polygon are functions of the matrix
of its positions, its area and its normal. The connection Laplacian (embedded_geometry_interface.cpp:712-743, 841-869,
948-996) and `computePolygonVertexNormals` are in `PolygonConnection`. -/

namespace GC
open Matrix
open Classical

/-! ## Helpers of de Goes et al. -/

namespace Poly
variable {n : ℕ}

/-- The index `(i + 1) % n`. -/
def cyc (i : Fin n) : Fin n := ⟨(i.1 + 1) % n, Nat.mod_lt _ (Nat.lt_of_le_of_lt (Nat.zero_le _) i.2)⟩

/-- `polygonAveragingMatrix`, polygon_mesh_helpers.cpp:87-95. -/
noncomputable def averaging (n : ℕ) : Matrix (Fin n) (Fin n) ℝ := Matrix.of fun i j => if j = i then 0.5 else if j = cyc i then 0.5 else 0

/-- `polygonDerivativeMatrix`, polygon_mesh_helpers.cpp:97-105; the entry on the diagonal is written last. -/
noncomputable def derivative (n : ℕ) : Matrix (Fin n) (Fin n) ℝ := Matrix.of fun i j => if j = i then -1 else if j = cyc i then 1 else 0

/-- `bracket`, polygon_mesh_helpers.cpp:107-111. -/
def bracket (n : Fin 3 → ℝ) : Matrix (Fin 3) (Fin 3) ℝ := !![0, -n 2, n 1; n 2, 0, -n 0; -n 1, n 0, 0]

variable (p : Matrix (Fin n) (Fin 3) ℝ) (A : ℝ) (N : Fin 3 → ℝ)

/-- `polygonEdgeVectorMatrix`, embedded_geometry_interface.cpp:892-894. -/
noncomputable def edgeVector : Matrix (Fin n) (Fin 3) ℝ := derivative n * p

/-- `polygonEdgeMidpointMatrix`, embedded_geometry_interface.cpp:896-898. -/
noncomputable def edgeMidpoint : Matrix (Fin n) (Fin 3) ℝ := averaging n * p

/-- `polygonCoGradientMatrix`, embedded_geometry_interface.cpp:888-890. -/
noncomputable def coGradient : Matrix (Fin 3) (Fin n) ℝ := (edgeVector p)ᵀ * averaging n

/-- `polygonPerFaceGradientMatrix`, embedded_geometry_interface.cpp:877-886. -/
noncomputable def gradient : Matrix (Fin 3) (Fin n) ℝ := (1 / A) • bracket N * coGradient p

/-- `polygonCentroid`, embedded_geometry_interface.cpp:937-946. -/
noncomputable def centroid : Fin 3 → ℝ := fun k => (∑ i, p i k) * (1 / n)

/-- `polygonFlat`, embedded_geometry_interface.cpp:900-906. -/
noncomputable def flat : Matrix (Fin n) (Fin 3) ℝ := edgeVector p * (1 - vecMulVec N N)

/-- `polygonSharp`, embedded_geometry_interface.cpp:908-918. -/
noncomputable def sharp : Matrix (Fin 3) (Fin n) ℝ := (1 / A) • bracket N * ((edgeMidpoint p)ᵀ - vecMulVec (centroid p) 1)

/-- `polygonProjectionMatrix`, embedded_geometry_interface.cpp:871-875. -/
noncomputable def projection : Matrix (Fin n) (Fin n) ℝ := 1 - flat p N * sharp p A N

/-- `polygonPerFaceInnerProductMatrix`, embedded_geometry_interface.cpp:832-839. -/
noncomputable def innerProduct (lam : ℝ) : Matrix (Fin n) (Fin n) ℝ :=
  A • (sharp p A N)ᵀ * sharp p A N + lam • (projection p A N)ᵀ * projection p A N

/-- `polygonPerFaceLaplacian`, embedded_geometry_interface.cpp:827-830. -/
noncomputable def laplacian (lam : ℝ) : Matrix (Fin n) (Fin n) ℝ := (derivative n)ᵀ * innerProduct p A N lam * derivative n

/-! ## Helpers of Bunge et al. -/

/-- One pass of the loop over `j` in `simplePolygonVirtualVertex`, polygon_mesh_helpers.cpp:38-62: the sums in the order `Bk1_d1`, `Bk1_d2`, `Bk2_d0`,
`Bk2_d2`, `Bk3_d0`, `Bk3_d1`, `CBk`. -/
def virtualTerm (pk pi pj : Fin 3 → ℝ) : Fin 7 → ℝ :=
  let d := pi - pj
  let Bik1 := d 1 * pk 2 - d 2 * pk 1
  let Bik2 := d 2 * pk 0 - d 0 * pk 2
  let Bik3 := d 0 * pk 1 - d 1 * pk 0
  let Ci1 := d 1 * pi 2 - d 2 * pi 1
  let Ci2 := d 2 * pi 0 - d 0 * pi 2
  let Ci3 := d 0 * pi 1 - d 1 * pi 0
  ![d 1 * Bik1, d 2 * Bik1, d 0 * Bik2, d 2 * Bik2, d 0 * Bik3, d 1 * Bik3, Ci1 * Bik1 + Ci2 * Bik2 + Ci3 * Bik3]

/-- The matrix `J`, polygon_mesh_helpers.cpp:22-67. -/
noncomputable def virtualJ : Matrix (Fin n) (Fin n) ℝ := Matrix.of fun i k =>
  let B := ∑ j, virtualTerm (p i) (p j) (p (cyc j))
  let xj := p k
  0.5 * (xj 2 * B 0 - xj 1 * B 1 + xj 0 * B 3 - xj 2 * B 2 + xj 1 * B 4 - xj 0 * B 5)

/-- The vector `b`, polygon_mesh_helpers.cpp:68. -/
noncomputable def virtualB : Fin n → ℝ := fun i => 0.5 * (∑ j, virtualTerm (p i) (p j) (p (cyc j))) 6

/-- `simplePolygonVirtualVertex`, polygon_mesh_helpers.cpp:11-80. The last row of the system is indexed by `Unit`; `solve` stands for
`completeOrthogonalDecomposition().solve`. -/
noncomputable def virtualVertex (solve : {n : ℕ} → Matrix (Fin n ⊕ Unit) (Fin n) ℝ → (Fin n ⊕ Unit → ℝ) → (Fin n → ℝ)) : Fin n → ℝ :=
  solve (Matrix.of (Sum.elim ((4 : ℝ) • virtualJ p) (fun _ _ => 1))) (Sum.elim ((4 : ℝ) • virtualB p) (fun _ => 1))

/-- Squared lengths of the triangle at side `i` of the fan, embedded_geometry_interface.cpp:471-473, 510-512: `l2[0]`, `l2[1]`, `l2[2]`. -/
noncomputable def fanSq (w : Fin n → ℝ) (i : Fin n) : Fin 3 → ℝ :=
  let q := pᵀ *ᵥ w
  ![(p (cyc i) - q) ⬝ᵥ (p (cyc i) - q), (p i - q) ⬝ᵥ (p i - q), (p i - p (cyc i)) ⬝ᵥ (p i - p (cyc i))]

/-- `sqrt(arg)`, embedded_geometry_interface.cpp:474-479, 513-518: four times the area. -/
noncomputable def fanRoot (w : Fin n → ℝ) (i : Fin n) : ℝ :=
  let l := fun k => Real.sqrt (fanSq p w i k)
  Real.sqrt ((l 0 + (l 1 + l 2)) * (l 2 - (l 0 - l 1)) * (l 2 + (l 0 - l 1)) * (l 0 + (l 1 - l 2)))

/-- `M(i, j) += x`. -/
noncomputable def bumpM {ι : Type} (M : ι → ι → ℝ) (i j : ι) (x : ℝ) : ι → ι → ℝ :=
  Function.update M i (Function.update (M i) j (M i j + x))

/-- `v(i) += x`. -/
noncomputable def bumpV {ι : Type} (v : ι → ℝ) (i : ι) (x : ℝ) : ι → ℝ := Function.update v i (v i + x)

/-- The last loops, embedded_geometry_interface.cpp:490-492, 536-538: `ln(n)` is `ln none`. -/
noncomputable def prolong (w : Fin n → ℝ) (M : Fin n → Fin n → ℝ) (ln : Option (Fin n) → ℝ) : Matrix (Fin n) (Fin n) ℝ :=
  Matrix.of fun i j => M i j + (w i * ln (some j) + w j * ln (some i) + w i * w j * ln none)

/-- One pass in `simplePolygonMassMatrix`, embedded_geometry_interface.cpp:469-489. -/
noncomputable def massStep (w : Fin n → ℝ) (s : (Fin n → Fin n → ℝ) × (Option (Fin n) → ℝ)) (i : Fin n) : (Fin n → Fin n → ℝ) × (Option (Fin n) → ℝ) :=
  let i1 := cyc i
  let area := 0.25 * fanRoot p w i
  let l0 := 1 / 6 * area
  let l1 := 1 / 12 * area
  let M := bumpM s.1 i1 i1 (1 / 6 * area)
  let M := bumpM M i i (1 / 6 * area)
  let M := bumpM M i1 i (1 / 12 * area)
  let M := bumpM M i i1 (1 / 12 * area)
  let ln := bumpV s.2 (some i1) l1
  let ln := bumpV ln (some i) l1
  (M, bumpV ln none l0)

/-- `simplePolygonMassMatrix`, embedded_geometry_interface.cpp:458-495; `w` are the weights of the face. -/
noncomputable def simpleMass (w : Fin n → ℝ) : Matrix (Fin n) (Fin n) ℝ :=
  let s := (List.finRange n).foldl (massStep p w) (fun _ _ => 0, fun _ => 0)
  prolong w s.1 s.2

/-- One pass in `simplePolygonStiffnessMatrix`, embedded_geometry_interface.cpp:508-535. -/
noncomputable def stiffStep (w : Fin n → ℝ) (s : (Fin n → Fin n → ℝ) × (Option (Fin n) → ℝ)) (i : Fin n) : (Fin n → Fin n → ℝ) × (Option (Fin n) → ℝ) :=
  let i1 := cyc i
  let l2 := fanSq p w i
  let area := 0.5 * fanRoot p w i
  if area > 1e-7 then
    let l0 := 0.25 * (l2 1 + l2 2 - l2 0) / area
    let l1 := 0.25 * (l2 2 + l2 0 - l2 1) / area
    let l2 := 0.25 * (l2 0 + l2 1 - l2 2) / area
    let S := bumpM s.1 i1 i1 l0
    let S := bumpM S i i l1
    let S := bumpM S i1 i (-l2)
    let S := bumpM S i i1 (-l2)
    let S := bumpM S i i l2
    let S := bumpM S i1 i1 l2
    let ln := bumpV s.2 (some i1) (-l0)
    let ln := bumpV ln (some i) (-l1)
    (S, bumpV ln none (l0 + l1))
  else s

/-- `simplePolygonStiffnessMatrix`, embedded_geometry_interface.cpp:497-541. -/
noncomputable def simpleStiffness (w : Fin n → ℝ) : Matrix (Fin n) (Fin n) ℝ :=
  let s := (List.finRange n).foldl (stiffStep p w) (fun _ _ => 0, fun _ => 0)
  prolong w s.1 s.2

end Poly

namespace Mesh
variable (m : Mesh) (pos : ℕ → V3)

/-- `polygonPositionMatrix`, embedded_geometry_interface.cpp:579-591, for the vertices of a face. -/
noncomputable def polyMatrix (vs : List ℕ) : Matrix (Fin vs.length) (Fin 3) ℝ := Matrix.of fun i => (pos (vs.get i)).toEigen

/-- The loops that add the matrix of a face to the triplets, embedded_geometry_interface.cpp:380-384, 411-415, 615-619, 804-808. -/
noncomputable def faceTriplets (ind : ℕ → ℕ) (xs : List ℕ) (S : Matrix (Fin xs.length) (Fin xs.length) ℝ) : List (Triplet ℝ) :=
  (List.finRange xs.length).flatMap fun j => (List.finRange xs.length).map fun i => (ind (xs.get i), ind (xs.get j), S i j)

/-- The loop over the faces that collects triplets. -/
noncomputable def perFace {β : Type} (g : ℕ → Res (List β)) : List ℕ → Res (List β)
  | [] => .ok []
  | f :: fs => do
    let l ← g f
    let r ← perFace g fs
    .ok (l ++ r)

/-- `computePolygonLaplacian`, embedded_geometry_interface.cpp:600-622. -/
noncomputable def polygonLaplacian (lam : ℝ) : Res (ℕ → ℕ → ℝ) := do
  let A ← m.faceAreasE pos
  let N ← m.faceNormalsE pos
  let ind ← m.getVertexIndices
  let fs ← m.rangeFaces
  let l ← perFace (fun f => do
    let vs ← m.navFaceVertices f
    .ok (faceTriplets ind vs (Poly.laplacian (polyMatrix pos vs) (A f) (N f).toEigen lam))) fs
  setFromTriplets m.nV m.nV l

/-- `computePolygonGradientMatrix`, embedded_geometry_interface.cpp:628-653. -/
noncomputable def polygonGradientMatrix : Res (ℕ → ℕ → ℝ) := do
  let A ← m.faceAreasE pos
  let N ← m.faceNormalsE pos
  let ind ← m.getVertexIndices
  let fInd ← m.getFaceIndices
  let fs ← m.rangeFaces
  let l ← perFace (fun f => do
    let vs ← m.navFaceVertices f
    let G := Poly.gradient (polyMatrix pos vs) (A f) (N f).toEigen
    .ok ((List.finRange 3).flatMap fun (i : Fin 3) => (List.finRange vs.length).map fun j => (3 * fInd f + i.1, ind (vs.get j), G i j))) fs
  setFromTriplets (3 * m.nF) m.nV l

/-- `computePolygonDivergenceMatrix`, embedded_geometry_interface.cpp:659-686. -/
noncomputable def polygonDivergenceMatrix : Res (ℕ → ℕ → ℝ) := do
  let A ← m.faceAreasE pos
  let N ← m.faceNormalsE pos
  let ind ← m.getVertexIndices
  let fInd ← m.getFaceIndices
  let fs ← m.rangeFaces
  let l ← perFace (fun f => do
    let vs ← m.navFaceVertices f
    let G := Poly.gradient (polyMatrix pos vs) (A f) (N f).toEigen
    .ok ((List.finRange 3).flatMap fun (i : Fin 3) => (List.finRange vs.length).map fun j => (ind (vs.get j), 3 * fInd f + i.1, G i j * A f))) fs
  setFromTriplets m.nV (3 * m.nF) l

/-- `hodge0` in `computePolygonVertexLumpedMassMatrix`, embedded_geometry_interface.cpp:692-706, and in `computePolygonDECOperators`, 789-797. -/
noncomputable def polygonHodge0 : Res (ℕ → ℝ) := do
  let A ← m.faceAreasE pos
  let ind ← m.getVertexIndices
  let fs ← m.rangeFaces
  let l ← perFace (fun f => do
    let vs ← m.navFaceVertices f
    .ok (vs.map (fun v => (ind v, A f / vs.length)))) fs
  .ok (accum (fun p => p.1) (fun p => p.2) l)

/-- `computePolygonVertexLumpedMassMatrix`, embedded_geometry_interface.cpp:692-706. -/
noncomputable def polygonVertexLumpedMassMatrix : Res (ℕ → ℕ → ℝ) := (m.polygonHodge0 pos).map diagonal

/-- `computePolygonDECOperators`, embedded_geometry_interface.cpp:754-820, with `polygonHodge0` as a diagonal; the inverses of diagonal matrices
are not modelled. -/
noncomputable def polygonDEC (lam : ℝ) : Res DEC := do
  let A ← m.faceAreasE pos
  let N ← m.faceNormalsE pos
  let vInd ← m.getVertexIndices
  let fInd ← m.getFaceIndices
  let hInd ← m.getHalfedgeIndices
  let fs ← m.rangeFaces
  let l ← nested m.navFaceHalfedges fs
  let d0 ← setFromTriplets m.nHe m.nV (l.flatMap (fun p =>
    [(hInd p.2, vInd (m.heVertex p.2), (-1 : ℝ)), (hInd p.2, vInd (m.heVertex (m.heNext p.2)), 1)]))
  let d1 ← setFromTriplets m.nF m.nHe (l.map (fun p => (fInd p.1, hInd p.2, (1 : ℝ))))
  let h0 ← m.polygonHodge0 pos
  let l1 ← perFace (fun f => do
    let vs ← m.navFaceVertices f
    let hs ← m.navFaceHalfedges f
    let M := Poly.innerProduct (polyMatrix pos vs) (A f) (N f).toEigen lam
    .ok ((List.finRange vs.length).flatMap fun (j : Fin vs.length) => (List.finRange vs.length).map fun (i : Fin vs.length) =>
      (hInd (hs.getD i.1 0), hInd (hs.getD j.1 0), M i j))) fs
  let h1 ← setFromTriplets m.nHe m.nHe l1
  .ok ⟨diagonal h0, h1, diagonal (fillVector fInd (fun f => 1 / A f) fs), d0, d1⟩

/-- `computeSimplePolygonLaplacian`, embedded_geometry_interface.cpp:366-388; `w f` is `virtualRefinementAreaWeights[f]`. -/
noncomputable def simplePolygonLaplacian (solve : {n : ℕ} → Matrix (Fin n ⊕ Unit) (Fin n) ℝ → (Fin n ⊕ Unit → ℝ) → (Fin n → ℝ)) :
    Res (ℕ → ℕ → ℝ) := do
  let ind ← m.getVertexIndices
  let fs ← m.rangeFaces
  let l ← perFace (fun f => do
    let vs ← m.navFaceVertices f
    let p := polyMatrix pos vs
    .ok (faceTriplets ind vs (Poly.simpleStiffness p (Poly.virtualVertex p solve)))) fs
  setFromTriplets m.nV m.nV l

/-- `computeSimplePolygonVertexGalerkinMassMatrix`, embedded_geometry_interface.cpp:394-416. -/
noncomputable def simplePolygonVertexGalerkinMassMatrix (solve : {n : ℕ} → Matrix (Fin n ⊕ Unit) (Fin n) ℝ → (Fin n ⊕ Unit → ℝ) → (Fin n → ℝ)) :
    Res (ℕ → ℕ → ℝ) := do
  let ind ← m.getVertexIndices
  let fs ← m.rangeFaces
  let l ← perFace (fun f => do
    let vs ← m.navFaceVertices f
    let p := polyMatrix pos vs
    .ok (faceTriplets ind vs (Poly.simpleMass p (Poly.virtualVertex p solve)))) fs
  setFromTriplets m.nV m.nV l

/-- `computeSimplePolygonVertexLumpedMassMatrix`, embedded_geometry_interface.cpp:426-448. -/
noncomputable def simplePolygonVertexLumpedMassMatrix (solve : {n : ℕ} → Matrix (Fin n ⊕ Unit) (Fin n) ℝ → (Fin n ⊕ Unit → ℝ) → (Fin n → ℝ)) :
    Res (ℕ → ℕ → ℝ) := do
  let ind ← m.getVertexIndices
  let fs ← m.rangeFaces
  let l ← perFace (fun f => do
    let vs ← m.navFaceVertices f
    let p := polyMatrix pos vs
    let M := Poly.simpleMass p (Poly.virtualVertex p solve)
    .ok ((List.finRange vs.length).flatMap fun j => (List.finRange vs.length).map fun i => (ind (vs.get i), ind (vs.get i), M i j))) fs
  setFromTriplets m.nV m.nV l

end Mesh
end GC
