import Verif.PolygonMesh
import Verif.Props.Normals

/-! # The connection Laplacian of polygon meshes (embedded_geometry_interface.cpp:712-743, 841-869, 920-935, 948-996)

Matrices with two rows or columns for each corner are indexed by pairs: the row `2 * i + r` is `(i, r)`. `polygonVertexNormals` and the tangent bases are
arguments of the matrices of a face, as are its positions, its area and its normal. -/

namespace GC
open Classical Matrix

namespace Poly
variable {n : ℕ}

/-- `Tv` and `Tf`, embedded_geometry_interface.cpp:948-974: the basis vectors are the columns. -/
def frame (X Y : Fin 3 → ℝ) : Matrix (Fin 3) (Fin 2) ℝ := Matrix.of fun k c => ![X k, Y k] c

/-- `Qvf`, embedded_geometry_interface.cpp:980-996. -/
noncomputable def align (nv nf : Fin 3 → ℝ) : Matrix (Fin 3) (Fin 3) ℝ :=
  let c := nv ⬝ᵥ nf
  if |c + 1| < 1e-5 then -1 else
    let skew := bracket (nv ⨯₃ nf)
    1 + skew + (1 / (1 + c)) • skew * skew

/-- `Rvf`, embedded_geometry_interface.cpp:976-978. -/
noncomputable def corner (Tf : Matrix (Fin 3) (Fin 2) ℝ) (Q : Matrix (Fin 3) (Fin 3) ℝ) (Tv : Matrix (Fin 3) (Fin 2) ℝ) : Matrix (Fin 2) (Fin 2) ℝ :=
  Tfᵀ * Q * Tv

/-- `kroneckerWithI2`, polygon_mesh_helpers.cpp:118-128. -/
noncomputable def kron {h w : ℕ} (M : Matrix (Fin h) (Fin w) ℝ) : Matrix (Fin h × Fin 2) (Fin w × Fin 2) ℝ :=
  Matrix.of fun a b => if a.2 = b.2 then M a.1 b.1 else 0

/-- `polygonBlockConnection`, embedded_geometry_interface.cpp:851-861. -/
noncomputable def blocks (R : Fin n → Matrix (Fin 2) (Fin 2) ℝ) : Matrix (Fin n × Fin 2) (Fin n × Fin 2) ℝ :=
  Matrix.of fun a b => if a.1 = b.1 then R a.1 a.2 b.2 else 0

variable (p : Matrix (Fin n) (Fin 3) ℝ) (A : ℝ) (N : Fin 3 → ℝ)

/-- `polygonCovariantGradient`, embedded_geometry_interface.cpp:863-865. -/
noncomputable def covGradient (T : Matrix (Fin 3) (Fin 2) ℝ) (R : Fin n → Matrix (Fin 2) (Fin 2) ℝ) : Matrix (Fin 2 × Fin 2) (Fin n × Fin 2) ℝ :=
  kron (Tᵀ * gradient p A N) * blocks R

/-- `polygonCovariantProjection`, embedded_geometry_interface.cpp:867-869. -/
noncomputable def covProjection (R : Fin n → Matrix (Fin 2) (Fin 2) ℝ) : Matrix (Fin n × Fin 2) (Fin n × Fin 2) ℝ :=
  kron (projection p A N * derivative n) * blocks R

/-- `polygonPerFaceConnectionLaplacian`, embedded_geometry_interface.cpp:841-849. -/
noncomputable def connectionLaplacian (T : Matrix (Fin 3) (Fin 2) ℝ) (R : Fin n → Matrix (Fin 2) (Fin 2) ℝ) (lam : ℝ) :
    Matrix (Fin n × Fin 2) (Fin n × Fin 2) ℝ :=
  let G := covGradient p A N T R
  let P := covProjection p A N R
  A • Gᵀ * G + lam • Pᵀ * P

end Poly

namespace Mesh
variable (m : Mesh) (pos : ℕ → V3)

/-- `computePolygonVertexNormals`, embedded_geometry_interface.cpp:920-935; a sum of zero is divided by zero, here it stays zero. -/
noncomputable def polygonVertexNormals : Res (ℕ → V3) := do
  let A ← m.faceAreasE pos
  let N ← m.faceNormalsE pos
  let vs ← m.rangeVertices
  assignM (fun _ => ⟨0, 0, 0⟩) (fun v => do
    let fs ← m.navVertexFaces v
    let vN := fs.foldl (fun s f => V3.add s ((N f).smul (A f))) ⟨0, 0, 0⟩
    .ok (vN.sdiv vN.norm)) vs

/-- The loops that add the matrix of a face to the triplets, embedded_geometry_interface.cpp:726-734. -/
noncomputable def connectionTriplets (ind : ℕ → ℕ) (xs : List ℕ) (S : Matrix (Fin xs.length × Fin 2) (Fin xs.length × Fin 2) ℝ) : List (Triplet ℂ) :=
  (List.finRange xs.length).flatMap fun j => (List.finRange xs.length).flatMap fun i =>
    let re := S (i, 0) (j, 0)
    let im := S (i, 1) (j, 0)
    [(ind (xs.get i), ind (xs.get j), 0.5 * (⟨re, im⟩ : ℂ)), (ind (xs.get j), ind (xs.get i), 0.5 * (⟨re, -im⟩ : ℂ))]

/-- `computePolygonVertexConnectionLaplacian`, embedded_geometry_interface.cpp:712-737, with the vertex normals `nv` and the tangent bases `tv`, `tf`
as arguments; `testMat` and `tripletsTest` are not used by the code. -/
noncomputable def connectionWith (lam : ℝ) (nv : ℕ → V3) (tv tf : ℕ → V3 × V3) : Res (ℕ → ℕ → ℂ) := do
  let A ← m.faceAreasE pos
  let N ← m.faceNormalsE pos
  let ind ← m.getVertexIndices
  let fs ← m.rangeFaces
  let l ← perFace (fun f => do
    let vs ← m.navFaceVertices f
    let T := Poly.frame (tf f).1.toEigen (tf f).2.toEigen
    let R := fun i => Poly.corner T (Poly.align (nv (vs.get i)).toEigen (N f).toEigen) (Poly.frame (tv (vs.get i)).1.toEigen (tv (vs.get i)).2.toEigen)
    .ok (connectionTriplets ind vs (Poly.connectionLaplacian (polyMatrix pos vs) (A f) (N f).toEigen T R lam))) fs
  setFromTriplets m.nV m.nV l

/-- The assertion in `computeHalfedgeVectorsInFace`, intrinsic_geometry_interface.cpp:297-303, on which `faceTangentBasis` depends. -/
def assertTriangles : List ℕ → Res Unit
  | [] => .ok ()
  | f :: fs => if m.heNext (m.heNext (m.heNext (m.fHalfedge f))) = m.fHalfedge f then assertTriangles fs else .error .throw

/-- `computePolygonVertexConnectionLaplacian` for meshes with implicit twins: the tangent bases are those of `computeFaceTangentBasis` and
`computeVertexTangentBasis`. The order in which the bases are computed is left open by the code; both are computed before the first entry. -/
noncomputable def polygonVertexConnectionLaplacian (nan : V2) (lam : ℝ) : Res (ℕ → ℕ → ℂ) := do
  let fs ← m.rangeFaces
  m.assertTriangles fs
  let tf ← m.faceTangentBasisE pos nan
  let tv ← m.vertexTangentBasisE pos
  let nv ← m.polygonVertexNormals pos
  m.connectionWith pos lam nv tv tf

end Mesh

/-! ## Rotations -/

namespace Poly
variable {n : ℕ} {a b : Fin 3 → ℝ}

theorem ext3 {u w : Fin 3 → ℝ} (h0 : u 0 = w 0) (h1 : u 1 = w 1) (h2 : u 2 = w 2) : u = w := by
  funext i; fin_cases i <;> assumption

theorem cross0 (u w : Fin 3 → ℝ) : (u ⨯₃ w) 0 = u 1 * w 2 - u 2 * w 1 := by rw [cross_apply]; rfl
theorem cross1 (u w : Fin 3 → ℝ) : (u ⨯₃ w) 1 = u 2 * w 0 - u 0 * w 2 := by rw [cross_apply]; rfl
theorem cross2 (u w : Fin 3 → ℝ) : (u ⨯₃ w) 2 = u 0 * w 1 - u 1 * w 0 := by rw [cross_apply]; rfl

/-- The rotation that takes `a` to `b` and keeps their common normal, by the formula of Rodrigues. -/
noncomputable def turn (a b w : Fin 3 → ℝ) : Fin 3 → ℝ :=
  (a ⬝ᵥ b) • w + (a ⨯₃ b) ⨯₃ w + (((a ⨯₃ b) ⬝ᵥ w) * (1 / (1 + a ⬝ᵥ b))) • (a ⨯₃ b)

theorem cross_sq' (ha : a ⬝ᵥ a = 1) (hb : b ⬝ᵥ b = 1) : (a ⨯₃ b) ⬝ᵥ (a ⨯₃ b) = 1 - (a ⬝ᵥ b) ^ 2 := by
  rw [cross_dot_cross, ha, hb, dotProduct_comm b a]; ring

theorem align_mulVec (ha : a ⬝ᵥ a = 1) (hb : b ⬝ᵥ b = 1) (hc : ¬ |a ⬝ᵥ b + 1| < 1e-5) (w : Fin 3 → ℝ) : align a b *ᵥ w = turn a b w := by
  have h1 : 1 + a ⬝ᵥ b ≠ 0 := by
    intro h
    apply hc
    rw [add_comm, h]; norm_num
  have h2 := cross_sq' ha hb
  unfold align turn
  simp only [if_neg hc]
  rw [add_mulVec, add_mulVec, one_mulVec, Matrix.smul_mul, smul_mulVec, ← mulVec_mulVec, bracket_mulVec, bracket_mulVec]
  generalize a ⨯₃ b = v at h2 ⊢
  generalize hk : a ⬝ᵥ b = c at h1 h2 ⊢
  have h3 : (1 / (1 + c)) * (1 + c) = 1 := by field_simp
  generalize 1 / (1 + c) = k at h3 ⊢
  simp only [dotProduct, Fin.sum_univ_three] at h2 ⊢
  refine ext3 ?_ ?_ ?_ <;> simp only [Pi.add_apply, Pi.smul_apply, smul_eq_mul, cross0, cross1, cross2]
  · linear_combination (-k * w 0) * h2 + (-(1 - c) * w 0) * h3
  · linear_combination (-k * w 1) * h2 + (-(1 - c) * w 1) * h3
  · linear_combination (-k * w 2) * h2 + (-(1 - c) * w 2) * h3

variable (ha : a ⬝ᵥ a = 1) (hb : b ⬝ᵥ b = 1) (hc : 1 + a ⬝ᵥ b ≠ 0)
include ha hb hc

theorem turn_dot (u w : Fin 3 → ℝ) : turn a b u ⬝ᵥ turn a b w = u ⬝ᵥ w := by
  have h2 := cross_sq' ha hb
  unfold turn
  generalize a ⨯₃ b = v at h2 ⊢
  generalize hk : a ⬝ᵥ b = c at hc h2 ⊢
  have h3 : (1 / (1 + c)) * (1 + c) = 1 := by field_simp
  generalize 1 / (1 + c) = k at h3 ⊢
  simp only [dotProduct, Fin.sum_univ_three] at h2 ⊢
  simp only [Pi.add_apply, Pi.smul_apply, smul_eq_mul, cross0, cross1, cross2]
  linear_combination (u 0 * w 0 + u 1 * w 1 + u 2 * w 2 + k ^ 2 * (v 0 * u 0 + v 1 * u 1 + v 2 * u 2) * (v 0 * w 0 + v 1 * w 1 + v 2 * w 2)) * h2 +
    ((v 0 * u 0 + v 1 * u 1 + v 2 * u 2) * (v 0 * w 0 + v 1 * w 1 + v 2 * w 2) * (1 + k * (1 - c))) * h3

theorem turn_cross (u w : Fin 3 → ℝ) : turn a b (u ⨯₃ w) = turn a b u ⨯₃ turn a b w := by
  have h2 := cross_sq' ha hb
  unfold turn
  generalize a ⨯₃ b = v at h2 ⊢
  generalize hk : a ⬝ᵥ b = c at hc h2 ⊢
  have h3 : (1 / (1 + c)) * (1 + c) = 1 := by field_simp
  generalize 1 / (1 + c) = k at h3 ⊢
  simp only [dotProduct, Fin.sum_univ_three] at h2 ⊢
  refine ext3 ?_ ?_ ?_ <;> simp only [Pi.add_apply, Pi.smul_apply, smul_eq_mul, cross0, cross1, cross2]
  · linear_combination -(v 1 * (u 0 * w 1 - u 1 * w 0) - v 2 * (u 2 * w 0 - u 0 * w 2) + c * (u 1 * w 2 - u 2 * w 1)) * (k * h2 + (1 - c) * h3) +
      v 0 * (v 0 * (u 1 * w 2 - u 2 * w 1) + v 1 * (u 2 * w 0 - u 0 * w 2) + v 2 * (u 0 * w 1 - u 1 * w 0)) * h3
  · linear_combination -(v 2 * (u 1 * w 2 - u 2 * w 1) - v 0 * (u 0 * w 1 - u 1 * w 0) + c * (u 2 * w 0 - u 0 * w 2)) * (k * h2 + (1 - c) * h3) +
      v 1 * (v 0 * (u 1 * w 2 - u 2 * w 1) + v 1 * (u 2 * w 0 - u 0 * w 2) + v 2 * (u 0 * w 1 - u 1 * w 0)) * h3
  · linear_combination -(v 0 * (u 2 * w 0 - u 0 * w 2) - v 1 * (u 1 * w 2 - u 2 * w 1) + c * (u 0 * w 1 - u 1 * w 0)) * (k * h2 + (1 - c) * h3) +
      v 2 * (v 0 * (u 1 * w 2 - u 2 * w 1) + v 1 * (u 2 * w 0 - u 0 * w 2) + v 2 * (u 0 * w 1 - u 1 * w 0)) * h3

omit hb hc in
theorem turn_self : turn a b a = b := by
  unfold turn
  have e : (a ⨯₃ b) ⬝ᵥ a = 0 := by rw [dotProduct_comm, dot_self_cross]
  rw [e, zero_mul, zero_smul, add_zero]
  simp only [dotProduct, Fin.sum_univ_three] at ha ⊢
  refine ext3 ?_ ?_ ?_ <;> simp only [Pi.add_apply, Pi.smul_apply, smul_eq_mul, cross0, cross1, cross2]
  · linear_combination b 0 * ha
  · linear_combination b 1 * ha
  · linear_combination b 2 * ha

theorem turn_axis {u : Fin 3 → ℝ} (h0 : u ⬝ᵥ a = 0) (h1 : u ⬝ᵥ b = 0) : turn a b u = u := by
  have h2 := cross_sq' ha hb
  have h4 : (a ⨯₃ b) ⨯₃ u = 0 := by
    simp only [dotProduct, Fin.sum_univ_three] at h0 h1
    refine ext3 ?_ ?_ ?_ <;> simp only [Pi.zero_apply, cross0, cross1, cross2]
    · linear_combination b 0 * h0 - a 0 * h1
    · linear_combination b 1 * h0 - a 1 * h1
    · linear_combination b 2 * h0 - a 2 * h1
  unfold turn
  rw [h4, add_zero]
  generalize a ⨯₃ b = v at h2 h4 ⊢
  generalize hk : a ⬝ᵥ b = c at hc h2 ⊢
  have h3 : (1 / (1 + c)) * (1 + c) = 1 := by field_simp
  generalize 1 / (1 + c) = k at h3 ⊢
  have c0 := congrFun h4 0; have c1 := congrFun h4 1; have c2 := congrFun h4 2
  simp only [Pi.zero_apply, cross0, cross1, cross2] at c0 c1 c2
  simp only [dotProduct, Fin.sum_univ_three] at h2 ⊢
  refine ext3 ?_ ?_ ?_ <;> simp only [Pi.add_apply, Pi.smul_apply, smul_eq_mul]
  · linear_combination k * u 0 * h2 + (1 - c) * u 0 * h3 + k * (v 2 * c1 - v 1 * c2) * (-1)
  · linear_combination k * u 1 * h2 + (1 - c) * u 1 * h3 + k * (v 0 * c2 - v 2 * c0) * (-1)
  · linear_combination k * u 2 * h2 + (1 - c) * u 2 * h3 + k * (v 1 * c0 - v 0 * c1) * (-1)

end Poly
end GC
