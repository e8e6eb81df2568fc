import Mathlib.LinearAlgebra.Matrix.Rank
import Mathlib.Analysis.RCLike.Basic
import Verif.Simplify
import Verif.Props.Normals

/-! # Sums of quadrics of planes (lemmas for C83) -/

namespace GC
open Matrix

namespace Quadric

@[ext] theorem ext' {P Q : Quadric} (h1 : P.A = Q.A) (h2 : P.b = Q.b) (h3 : P.c = Q.c) : P = Q := by
  cases P; cases Q; simp_all

instance : Zero Quadric := ⟨zero⟩
instance : Add Quadric := ⟨add⟩

@[simp] theorem zero_A : (0 : Quadric).A = 0 := rfl
@[simp] theorem zero_b : (0 : Quadric).b = 0 := rfl
@[simp] theorem zero_c : (0 : Quadric).c = 0 := rfl
@[simp] theorem add_A (P Q : Quadric) : (P + Q).A = P.A + Q.A := rfl
@[simp] theorem add_b (P Q : Quadric) : (P + Q).b = P.b + Q.b := rfl
@[simp] theorem add_c (P Q : Quadric) : (P + Q).c = P.c + Q.c := rfl

instance : AddCommMonoid Quadric where
  add_assoc P Q S := by ext <;> simp [add_assoc]
  zero_add P := by ext <;> simp
  add_zero P := by ext <;> simp
  add_comm P Q := by ext <;> simp [add_comm]
  nsmul := nsmulRec

theorem cost_add (P Q : Quadric) (x : Fin 3 → ℝ) : (P + Q).cost x = P.cost x + Q.cost x := by
  simp only [cost, add_A, add_b, add_c, add_mulVec, dotProduct_add, add_dotProduct]
  ring

theorem cost_zero (x : Fin 3 → ℝ) : (0 : Quadric).cost x = 0 := by
  simp [cost]

theorem cost_sum {ι : Type} (s : Finset ι) (F : ι → Quadric) (x : Fin 3 → ℝ) : (∑ i ∈ s, F i).cost x = ∑ i ∈ s, (F i).cost x := by
  classical
  induction s using Finset.induction_on with
  | empty => simp [cost_zero]
  | insert a s ha ih => rw [Finset.sum_insert ha, Finset.sum_insert ha, cost_add, ih]

theorem A_sum {ι : Type} (s : Finset ι) (F : ι → Quadric) : (∑ i ∈ s, F i).A = ∑ i ∈ s, (F i).A := by
  classical
  induction s using Finset.induction_on with
  | empty => simp
  | insert a s ha ih => rw [Finset.sum_insert ha, Finset.sum_insert ha, add_A, ih]

theorem b_sum {ι : Type} (s : Finset ι) (F : ι → Quadric) : (∑ i ∈ s, F i).b = ∑ i ∈ s, (F i).b := by
  classical
  induction s using Finset.induction_on with
  | empty => simp
  | insert a s ha ih => rw [Finset.sum_insert ha, Finset.sum_insert ha, add_b, ih]

theorem cost_ofPlane (n q x : Fin 3 → ℝ) : (ofPlane n q).cost x = (n ⬝ᵥ (x - q)) ^ 2 := by
  simp only [cost, ofPlane, vecMulVec, mulVec, dotProduct, Matrix.of_apply, Fin.sum_univ_three, Pi.smul_apply, Pi.sub_apply, smul_eq_mul]
  ring

/-- A sum of quadrics of planes. -/
def IsPlanes (Q : Quadric) : Prop := ∃ (ι : Type) (_ : Fintype ι) (n q : ι → Fin 3 → ℝ), Q = ∑ i, ofPlane (n i) (q i)

theorem isPlanes_zero : IsPlanes 0 := ⟨Empty, inferInstance, fun _ => 0, fun _ => 0, by simp⟩

theorem isPlanes_ofPlane (n q : Fin 3 → ℝ) : IsPlanes (ofPlane n q) := ⟨Unit, inferInstance, fun _ => n, fun _ => q, by simp⟩

theorem IsPlanes.add {P Q : Quadric} (hP : IsPlanes P) (hQ : IsPlanes Q) : IsPlanes (P + Q) := by
  obtain ⟨ι, _, n, q, rfl⟩ := hP
  obtain ⟨κ, _, n', q', rfl⟩ := hQ
  exact ⟨ι ⊕ κ, inferInstance, Sum.elim n n', Sum.elim q q', by simp [Fintype.sum_sum_type]⟩

theorem isPlanes_sum {ι : Type} (s : Finset ι) (F : ι → Quadric) (h : ∀ i ∈ s, IsPlanes (F i)) : IsPlanes (∑ i ∈ s, F i) := by
  classical
  induction s using Finset.induction_on with
  | empty => simpa using isPlanes_zero
  | insert a s ha ih =>
    rw [Finset.sum_insert ha]
    exact (h a (Finset.mem_insert_self a s)).add (ih (fun i hi => h i (Finset.mem_insert_of_mem hi)))

theorem IsPlanes.cost_nonneg {Q : Quadric} (h : IsPlanes Q) (x : Fin 3 → ℝ) : 0 ≤ Q.cost x := by
  obtain ⟨ι, _, n, q, rfl⟩ := h
  rw [cost_sum]
  exact Finset.sum_nonneg (fun i _ => by rw [cost_ofPlane]; positivity)

/-- Normal equations can be solved. -/
theorem normal_equations {ι : Type} [Fintype ι] (N : Matrix ι (Fin 3) ℝ) (d : ι → ℝ) : ∃ x, (Nᵀ * N) *ᵥ x = Nᵀ *ᵥ d := by
  have le : LinearMap.range (Nᵀ * N).mulVecLin ≤ LinearMap.range Nᵀ.mulVecLin := by
    rintro _ ⟨x, rfl⟩
    exact ⟨N *ᵥ x, by simp [mulVec_mulVec]⟩
  have eq : LinearMap.range (Nᵀ * N).mulVecLin = LinearMap.range Nᵀ.mulVecLin := by
    refine Submodule.eq_of_le_of_finrank_eq le ?_
    have h1 := rank_transpose_mul_self N
    have h2 := rank_transpose N
    unfold Matrix.rank at h1 h2
    rw [h1]
    exact h2.symm
  have : Nᵀ *ᵥ d ∈ LinearMap.range (Nᵀ * N).mulVecLin := by
    rw [eq]; exact ⟨d, rfl⟩
  obtain ⟨x, hx⟩ := this
  exact ⟨x, hx⟩

theorem IsPlanes.solvable {Q : Quadric} (h : IsPlanes Q) : ∃ x, Q.A *ᵥ x = Q.b := by
  obtain ⟨ι, _, n, q, rfl⟩ := h
  obtain ⟨x, hx⟩ := normal_equations (Matrix.of n) (fun i => -(n i ⬝ᵥ q i))
  refine ⟨x, ?_⟩
  rw [A_sum, b_sum]
  have e1 : ∑ i, (ofPlane (n i) (q i)).A = (Matrix.of n)ᵀ * Matrix.of n := by
    ext a b
    simp [ofPlane, vecMulVec, Matrix.sum_apply, Matrix.mul_apply]
  have e2 : ∑ i, (ofPlane (n i) (q i)).b = (Matrix.of n)ᵀ *ᵥ (fun i => -(n i ⬝ᵥ q i)) := by
    ext a
    simp only [ofPlane, Finset.sum_apply, Pi.smul_apply, smul_eq_mul, mulVec, dotProduct, Matrix.transpose_apply, Matrix.of_apply]
    exact Finset.sum_congr rfl (fun i _ => by ring)
  rw [e1, e2, hx]

/-- A solution of the linear system is a minimum. -/
theorem IsPlanes.minimum {Q : Quadric} (h : IsPlanes Q) {p : Fin 3 → ℝ} (hp : Q.A *ᵥ p = -Q.b) (x : Fin 3 → ℝ) : Q.cost p ≤ Q.cost x := by
  obtain ⟨ι, _, n, q, rfl⟩ := h
  have hp' : ∑ i, (n i ⬝ᵥ (p - q i)) * (n i ⬝ᵥ (x - p)) = 0 := by
    rw [A_sum, b_sum] at hp
    have := congrArg (fun v => v ⬝ᵥ (x - p)) hp
    rw [neg_dotProduct, ← sub_eq_zero, sub_neg_eq_add, Matrix.sum_mulVec, sum_dotProduct, sum_dotProduct, ← Finset.sum_add_distrib] at this
    rw [← this]
    refine Finset.sum_congr rfl (fun i _ => ?_)
    simp only [ofPlane, vecMulVec, mulVec, dotProduct, Matrix.of_apply, Fin.sum_univ_three, Pi.smul_apply, Pi.sub_apply, smul_eq_mul]
    ring
  rw [cost_sum, cost_sum]
  have : ∑ i, (ofPlane (n i) (q i)).cost x = ∑ i, (ofPlane (n i) (q i)).cost p + 2 * ∑ i, (n i ⬝ᵥ (p - q i)) * (n i ⬝ᵥ (x - p)) +
      ∑ i, (n i ⬝ᵥ (x - p)) ^ 2 := by
    rw [Finset.mul_sum, ← Finset.sum_add_distrib, ← Finset.sum_add_distrib]
    refine Finset.sum_congr rfl (fun i _ => ?_)
    have e : x - q i = (p - q i) + (x - p) := by abel
    rw [cost_ofPlane, cost_ofPlane, e, dotProduct_add]
    ring
  rw [this, hp']
  have : 0 ≤ ∑ i, (n i ⬝ᵥ (x - p)) ^ 2 := Finset.sum_nonneg (fun i _ => by positivity)
  linarith

/-- Eigen's solver gives a solution if there is one. -/
def Solves (solve : Matrix (Fin 3) (Fin 3) ℝ → (Fin 3 → ℝ) → (Fin 3 → ℝ)) : Prop := ∀ A b, (∃ x, A *ᵥ x = b) → A *ᵥ solve A b = b

theorem IsPlanes.optimal {Q : Quadric} (h : IsPlanes Q) {solve : Matrix (Fin 3) (Fin 3) ℝ → (Fin 3 → ℝ) → (Fin 3 → ℝ)} (hs : Solves solve)
    (x : Fin 3 → ℝ) : Q.cost (Q.optimalPoint solve) ≤ Q.cost x :=
  h.minimum (by rw [optimalPoint, mulVec_neg, hs _ _ h.solvable]) x

end Quadric

namespace Mesh
open Quadric Finset

/-- The loop over the corners of a face. -/
theorem corner_fold (pos : ℕ → V3) (n : Fin 3 → ℝ) (m : Mesh) (l : List ℕ) (qd : ℕ → Quadric) (v : ℕ) :
    (l.map m.heVertex).foldl (fun qd v => Function.update qd v ((qd v).add (ofPlane n (pos v).toEigen))) qd v =
      qd v + (l.map (fun h => if m.heVertex h = v then ofPlane n (pos (m.heVertex h)).toEigen else 0)).sum := by
  induction l generalizing qd with
  | nil => simp
  | cons a t ih =>
    rw [List.map_cons, List.foldl_cons, ih, List.map_cons, List.sum_cons]
    by_cases c : m.heVertex a = v
    · rw [if_pos c, c, Function.update_self, ← add_assoc]; rfl
    · rw [if_neg c, Function.update_of_ne (Ne.symm c), zero_add]

theorem vertexQuadrics_fold {m : Mesh} (hv : m.Valid) (pos : ℕ → V3) (N : ℕ → V3) (fs : List ℕ) (hf : ∀ f ∈ fs, f ∈ m.faces) (qd : ℕ → Quadric) :
    ∃ qd', fs.foldlM (fun qd f => do
      let vs ← m.navFaceVertices f
      Except.ok (vs.foldl (fun qd v => Function.update qd v ((qd v).add (ofPlane (N f).toEigen (pos v).toEigen))) qd)) qd = (.ok qd' : Res _) ∧
      ∀ v, qd' v = qd v + (fs.map (fun f => ∑ h ∈ m.ints with m.heFace h = f,
        if m.heVertex h = v then ofPlane (N (m.heFace h)).toEigen (pos (m.heVertex h)).toEigen else 0)).sum := by
  induction fs generalizing qd with
  | nil => exact ⟨qd, rfl, fun v => by simp⟩
  | cons f t ih =>
    obtain ⟨q1, q2⟩ := mem_faces.1 (hf f (by simp))
    obtain ⟨l, -, nd, mem, -, -, -, nv, -⟩ := C49_face_halfedges m hv f q1
    rw [List.foldlM_cons, nv]
    obtain ⟨qd', e, h⟩ := ih (fun g hg => hf g (by simp [hg]))
      ((l.map m.heVertex).foldl (fun qd v => Function.update qd v ((qd v).add (ofPlane (N f).toEigen (pos v).toEigen))) qd)
    refine ⟨qd', e, fun v => ?_⟩
    rw [h v, corner_fold, List.map_cons, List.sum_cons, add_assoc]
    congr 2
    rw [← List.sum_toFinset _ nd]
    have ef : l.toFinset = {h ∈ m.ints | m.heFace h = f} := by
      ext i
      rw [List.mem_toFinset, mem, Finset.mem_filter, mem_ints]
      constructor
      · rintro ⟨a, b⟩
        refine ⟨⟨a, ?_⟩, b⟩
        unfold Mesh.ext
        rw [b]; omega
      · rintro ⟨⟨a, -⟩, b⟩; exact ⟨a, b⟩
    rw [ef]
    refine Finset.sum_congr rfl (fun h hh => ?_)
    rw [(Finset.mem_filter.1 hh).2]

/-- The quadric of a vertex before the loop is the sum over its corners. -/
theorem vertexQuadrics_ok {m : Mesh} (hv : m.Valid) (pos : ℕ → V3) (N : ℕ → V3) (hN : m.faceNormalsE pos = .ok N) :
    ∃ qd, m.vertexQuadrics pos = .ok qd ∧ ∀ v, qd v = ∑ h ∈ m.ints with m.heVertex h = v, ofPlane (N (m.heFace h)).toEigen (pos v).toEigen := by
  obtain ⟨vs, hs, is, es, fs, R⟩ := hv.ranges
  obtain ⟨qd, e, h⟩ := vertexQuadrics_fold hv pos N fs (fun f hf => (R.mf f).1 hf) (fun _ => Quadric.zero)
  refine ⟨qd, ?_, fun v => ?_⟩
  · unfold vertexQuadrics
    rw [hN, R.f]
    exact e
  · rw [h v]
    have ef : fs.toFinset = m.faces := by ext f; rw [List.mem_toFinset, R.mf]
    rw [← List.sum_toFinset _ R.nf, ef, Finset.sum_fiberwise_of_maps_to (fun i hi => int_face hv hi), show (Quadric.zero : Quadric) = 0 from rfl,
      zero_add, Finset.sum_filter]
    refine Finset.sum_congr rfl (fun h _ => ?_)
    by_cases c : m.heVertex h = v
    · rw [if_pos c, if_pos c, c]
    · rw [if_neg c, if_neg c]

end Mesh
end GC
