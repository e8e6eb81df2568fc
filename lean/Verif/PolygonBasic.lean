import Verif.Polygon
import Mathlib.LinearAlgebra.CrossProduct
import Mathlib.Algebra.BigOperators.Fin
import Mathlib.Tactic.LinearCombination

/-! # The operators of one polygon -/

namespace GC
open Matrix
open Classical

namespace Poly
variable {n : ℕ}

theorem cyc_val (i : Fin n) : (cyc i).1 = if i.1 + 1 = n then 0 else i.1 + 1 := by
  unfold cyc
  simp only
  split
  · rename_i h; rw [h, Nat.mod_self]
  · exact Nat.mod_eq_of_lt (by have := i.2; omega)

theorem cyc_inj : Function.Injective (cyc (n := n)) := by
  intro i j h
  have h := congrArg Fin.val h
  rw [cyc_val, cyc_val] at h
  have := i.2; have := j.2
  refine Fin.ext ?_
  split at h <;> split at h <;> omega

theorem cyc_ne (h2 : 2 ≤ n) (i : Fin n) : cyc i ≠ i := by
  intro h
  have h := congrArg Fin.val h
  rw [cyc_val] at h
  split at h <;> omega

theorem sum_cyc {α : Type} [AddCommMonoid α] (f : Fin n → α) : ∑ i, f (cyc i) = ∑ i, f i :=
  Fintype.sum_bijective cyc (Finite.injective_iff_bijective.1 cyc_inj) _ _ (fun _ => rfl)

theorem derivative_mulVec (h2 : 2 ≤ n) (φ : Fin n → ℝ) (i : Fin n) : (derivative n *ᵥ φ) i = φ (cyc i) - φ i := by
  have h : ∀ j, derivative n i j * φ j = (if j = cyc i then φ j else 0) - (if j = i then φ j else 0) := by
    intro j
    simp only [derivative, Matrix.of_apply]
    by_cases h : j = i
    · subst h
      rw [if_pos rfl, if_pos rfl, if_neg (Ne.symm (cyc_ne h2 j))]; ring
    · by_cases h' : j = cyc i
      · rw [if_neg h, if_pos h', if_pos h', if_neg h]; ring
      · rw [if_neg h, if_neg h', if_neg h', if_neg h]; ring
  simp only [Matrix.mulVec, dotProduct, h, Finset.sum_sub_distrib, Finset.sum_ite_eq', Finset.mem_univ, if_true]

theorem averaging_mulVec (h2 : 2 ≤ n) (φ : Fin n → ℝ) (i : Fin n) : (averaging n *ᵥ φ) i = (φ i + φ (cyc i)) / 2 := by
  have h : ∀ j, averaging n i j * φ j = (if j = cyc i then φ j / 2 else 0) + (if j = i then φ j / 2 else 0) := by
    intro j
    simp only [averaging, Matrix.of_apply]
    by_cases h : j = i
    · subst h
      rw [if_pos rfl, if_pos rfl, if_neg (Ne.symm (cyc_ne h2 j))]; ring
    · by_cases h' : j = cyc i
      · rw [if_neg h, if_pos h', if_pos h', if_neg h]; ring
      · rw [if_neg h, if_neg h', if_neg h', if_neg h]; ring
  simp only [Matrix.mulVec, dotProduct, h, Finset.sum_add_distrib, Finset.sum_ite_eq', Finset.mem_univ, if_true]
  ring

theorem bracket_mulVec (N v : Fin 3 → ℝ) : bracket N *ᵥ v = N ⨯₃ v := by
  rw [cross_apply]
  funext i
  fin_cases i <;> simp [bracket, Matrix.mulVec, dotProduct, Fin.sum_univ_three] <;> ring

variable {p : Matrix (Fin n) (Fin 3) ℝ} {A : ℝ} {N : Fin 3 → ℝ}

theorem edgeVector_apply (h2 : 2 ≤ n) (i : Fin n) : edgeVector p i = p (cyc i) - p i := by
  funext k
  have := derivative_mulVec h2 (fun j => p j k) i
  simp only [edgeVector, Matrix.mul_apply, Pi.sub_apply]
  simpa only [Matrix.mulVec, dotProduct] using this

theorem edgeMidpoint_apply (h2 : 2 ≤ n) (i : Fin n) : edgeMidpoint p i = (1 / 2 : ℝ) • (p i + p (cyc i)) := by
  funext k
  have := averaging_mulVec h2 (fun j => p j k) i
  simp only [edgeMidpoint, Matrix.mul_apply, Pi.smul_apply, Pi.add_apply, smul_eq_mul]
  simp only [Matrix.mulVec, dotProduct] at this
  rw [this]; ring

/-- The vector from the centroid to the middle of side `i`. -/
noncomputable def arm (p : Matrix (Fin n) (Fin 3) ℝ) (i : Fin n) : Fin 3 → ℝ := (1 / 2 : ℝ) • (p i + p (cyc i)) - centroid p

theorem sharp_mulVec (h2 : 2 ≤ n) (a : Fin n → ℝ) : sharp p A N *ᵥ a = (1 / A) • N ⨯₃ (∑ i, a i • arm p i) := by
  unfold sharp
  rw [Matrix.smul_mul, Matrix.smul_mulVec, ← Matrix.mulVec_mulVec, bracket_mulVec]
  congr 2
  funext k
  simp only [Matrix.mulVec, dotProduct, Matrix.sub_apply, Matrix.transpose_apply, vecMulVec_apply, Pi.one_apply, mul_one, Finset.sum_apply,
    Pi.smul_apply, smul_eq_mul, edgeMidpoint_apply h2, arm, Pi.sub_apply, Pi.add_apply]
  exact Finset.sum_congr rfl (fun i _ => by ring)

theorem flat_mulVec (h2 : 2 ≤ n) (u : Fin 3 → ℝ) (i : Fin n) :
    (flat p N *ᵥ u) i = (p (cyc i) - p i) ⬝ᵥ (u - (N ⬝ᵥ u) • N) := by
  unfold flat
  rw [← Matrix.mulVec_mulVec, Matrix.sub_mulVec, Matrix.one_mulVec]
  change edgeVector p i ⬝ᵥ _ = _
  rw [edgeVector_apply h2]
  congr 2
  funext k
  simp only [Matrix.mulVec, dotProduct, vecMulVec_apply, Pi.smul_apply, smul_eq_mul, Finset.sum_mul]
  exact Finset.sum_congr rfl (fun j _ => by ring)

theorem gradient_mulVec (h2 : 2 ≤ n) (φ : Fin n → ℝ) :
    gradient p A N *ᵥ φ = (1 / A) • N ⨯₃ (∑ i, ((φ i + φ (cyc i)) / 2) • (p (cyc i) - p i)) := by
  unfold gradient coGradient
  rw [Matrix.smul_mul, Matrix.smul_mulVec, ← Matrix.mulVec_mulVec, bracket_mulVec, ← Matrix.mulVec_mulVec]
  congr 2
  funext k
  simp only [Matrix.mulVec, dotProduct, Matrix.transpose_apply, Finset.sum_apply, Pi.smul_apply, smul_eq_mul]
  refine Finset.sum_congr rfl (fun i _ => ?_)
  have := averaging_mulVec h2 φ i
  simp only [Matrix.mulVec, dotProduct] at this
  rw [this, edgeVector_apply h2]
  ring

/-- Summation by parts around the polygon. -/
theorem sum_parts (φ : Fin n → ℝ) (q : Fin n → ℝ) (c : ℝ) :
    ∑ i, (φ (cyc i) - φ i) * ((1 / 2) * (q i + q (cyc i)) - c) = -∑ i, ((φ i + φ (cyc i)) / 2) * (q (cyc i) - q i) := by
  have h1 := sum_cyc (fun i => φ i * q i)
  have h2 := sum_cyc φ
  have : ∑ i, (φ (cyc i) - φ i) * ((1 / 2) * (q i + q (cyc i)) - c) + ∑ i, ((φ i + φ (cyc i)) / 2) * (q (cyc i) - q i) =
      (∑ i, φ (cyc i) * q (cyc i) - ∑ i, φ i * q i) - c * (∑ i, φ (cyc i) - ∑ i, φ i) := by
    rw [← Finset.sum_add_distrib, ← Finset.sum_sub_distrib, ← Finset.sum_sub_distrib, Finset.mul_sum, ← Finset.sum_sub_distrib]
    exact Finset.sum_congr rfl (fun i _ => by ring)
  rw [h1, h2] at this
  linarith

/-- The gradient matrix is minus the sharp operator applied to the exterior derivative. -/
theorem gradient_eq (h2 : 2 ≤ n) : gradient p A N = -(sharp p A N * derivative n) := by
  refine Matrix.ext_of_mulVec_single (fun j => ?_)
  generalize (Pi.single j 1 : Fin n → ℝ) = φ
  rw [Matrix.neg_mulVec, ← Matrix.mulVec_mulVec, gradient_mulVec h2, sharp_mulVec h2, ← smul_neg]
  congr 1
  rw [← map_neg]
  congr 1
  funext k
  have := sum_parts φ (fun i => p i k) (centroid p k)
  simp only [Finset.sum_apply, Pi.smul_apply, Pi.neg_apply, smul_eq_mul, Pi.sub_apply, arm, Pi.add_apply]
  simp only [derivative_mulVec h2]
  linarith

/-- The vector area of a polygon. -/
noncomputable def vecArea (p : Matrix (Fin n) (Fin 3) ℝ) : Fin 3 → ℝ := (1 / 2 : ℝ) • ∑ i, p i ⨯₃ p (cyc i)

theorem two_le_of_area (h : vecArea p ≠ 0) : 2 ≤ n := by
  by_contra h'
  refine h ?_
  unfold vecArea
  rw [Finset.sum_eq_zero, smul_zero]
  intro i _
  have : cyc i = i := by
    refine Fin.ext ?_
    have := i.2
    rw [cyc_val]
    split <;> omega
  rw [this, cross_self]

/-- The sum of edge vectors weighted by a linear function is the gradient of the function, turned by the vector area. -/
theorem sum_linear (g : Fin 3 → ℝ) (c : ℝ) :
    ∑ i, ((g ⬝ᵥ p i + c + (g ⬝ᵥ p (cyc i) + c)) / 2) • (p (cyc i) - p i) = vecArea p ⨯₃ g := by
  have key : ∀ a b : Fin 3 → ℝ, ((g ⬝ᵥ a + c + (g ⬝ᵥ b + c)) / 2) • (b - a) =
      ((1 / 2 : ℝ) • (a ⨯₃ b)) ⨯₃ g + (((g ⬝ᵥ b) / 2 + c) • b - ((g ⬝ᵥ a) / 2 + c) • a) := by
    intro a b
    simp only [cross_apply]
    funext k
    fin_cases k <;> simp [dotProduct, Fin.sum_univ_three] <;> ring
  simp only [key, Finset.sum_add_distrib, Finset.sum_sub_distrib]
  rw [sum_cyc (fun i => ((g ⬝ᵥ p i) / 2 + c) • p i), sub_self, add_zero]
  unfold vecArea
  rw [Finset.smul_sum, map_sum, LinearMap.sum_apply]

theorem cross_cross_self (hN : N ⬝ᵥ N = 1) (g : Fin 3 → ℝ) : N ⨯₃ (N ⨯₃ g) = (N ⬝ᵥ g) • N - g := by
  simp only [dotProduct, Fin.sum_univ_three] at hN
  simp only [cross_apply]
  funext k
  fin_cases k <;> simp [dotProduct, Fin.sum_univ_three]
  · linear_combination (-(g 0)) * hN
  · linear_combination (-(g 1)) * hN
  · linear_combination (-(g 2)) * hN

/-- On a linear function the gradient matrix gives minus its gradient along the plane of the polygon. -/
theorem gradient_linear (hA : A ≠ 0) (hN : N ⬝ᵥ N = 1) (hv : vecArea p = A • N) (g : Fin 3 → ℝ) (c : ℝ) :
    gradient p A N *ᵥ (fun i => g ⬝ᵥ p i + c) = -(g - (N ⬝ᵥ g) • N) := by
  have h0 : vecArea p ≠ 0 := by
    rw [hv]
    intro h
    rcases smul_eq_zero.1 h with h | h
    · exact hA h
    · rw [h] at hN; simp at hN
  rw [gradient_mulVec (two_le_of_area h0), sum_linear, hv]
  simp only [map_smul, LinearMap.smul_apply, smul_smul]
  rw [one_div_mul_cancel hA, one_smul, cross_cross_self hN, neg_sub]

/-- The inner product of 1-forms. -/
theorem innerProduct_form (lam : ℝ) (a b : Fin n → ℝ) : a ⬝ᵥ (innerProduct p A N lam *ᵥ b) =
    A * ((sharp p A N *ᵥ a) ⬝ᵥ (sharp p A N *ᵥ b)) + lam * ((projection p A N *ᵥ a) ⬝ᵥ (projection p A N *ᵥ b)) := by
  unfold innerProduct
  rw [Matrix.add_mulVec, dotProduct_add, Matrix.smul_mul, Matrix.smul_mul, Matrix.smul_mulVec, Matrix.smul_mulVec, dotProduct_smul,
    dotProduct_smul, smul_eq_mul, smul_eq_mul, ← Matrix.mulVec_mulVec, ← Matrix.mulVec_mulVec, Matrix.dotProduct_mulVec,
    Matrix.vecMul_transpose, Matrix.dotProduct_mulVec a, Matrix.vecMul_transpose]

theorem projection_mulVec (a : Fin n → ℝ) : projection p A N *ᵥ a = a - flat p N *ᵥ (sharp p A N *ᵥ a) := by
  unfold projection
  rw [Matrix.sub_mulVec, Matrix.one_mulVec, Matrix.mulVec_mulVec]

theorem laplacian_form (lam : ℝ) (a b : Fin n → ℝ) : a ⬝ᵥ (laplacian p A N lam *ᵥ b) =
    (derivative n *ᵥ a) ⬝ᵥ (innerProduct p A N lam *ᵥ (derivative n *ᵥ b)) := by
  unfold laplacian
  rw [← Matrix.mulVec_mulVec, ← Matrix.mulVec_mulVec, Matrix.dotProduct_mulVec a, Matrix.vecMul_transpose]

theorem self_nonneg {k : ℕ} (v : Fin k → ℝ) : 0 ≤ v ⬝ᵥ v := Finset.sum_nonneg (fun i _ => mul_self_nonneg _)

theorem self_zero {k : ℕ} {v : Fin k → ℝ} (h : v ⬝ᵥ v = 0) : v = 0 := by
  funext i
  have := (Finset.sum_eq_zero_iff_of_nonneg (fun i _ => mul_self_nonneg (v i))).1 h i (Finset.mem_univ _)
  exact mul_self_eq_zero.1 this

/-- The inner product of 1-forms is symmetric and positive definite. -/
theorem innerProduct_pos {lam : ℝ} (hA : 0 < A) (hl : 0 < lam) (a : Fin n → ℝ) : 0 ≤ a ⬝ᵥ (innerProduct p A N lam *ᵥ a) ∧
    (a ⬝ᵥ (innerProduct p A N lam *ᵥ a) = 0 → a = 0) := by
  rw [innerProduct_form]
  have h1 := mul_nonneg hA.le (self_nonneg (sharp p A N *ᵥ a))
  have h2 := mul_nonneg hl.le (self_nonneg (projection p A N *ᵥ a))
  refine ⟨add_nonneg h1 h2, fun h => ?_⟩
  have e1 : (sharp p A N *ᵥ a) ⬝ᵥ (sharp p A N *ᵥ a) = 0 := by
    have h3 : A * ((sharp p A N *ᵥ a) ⬝ᵥ (sharp p A N *ᵥ a)) = 0 := by linarith
    rcases mul_eq_zero.1 h3 with h | h
    · exact absurd h hA.ne'
    · exact h
  have e2 : (projection p A N *ᵥ a) ⬝ᵥ (projection p A N *ᵥ a) = 0 := by
    have h3 : lam * ((projection p A N *ᵥ a) ⬝ᵥ (projection p A N *ᵥ a)) = 0 := by linarith
    rcases mul_eq_zero.1 h3 with h | h
    · exact absurd h hl.ne'
    · exact h
  have e3 := self_zero e2
  rw [projection_mulVec, self_zero e1, Matrix.mulVec_zero, sub_zero] at e3
  exact e3

theorem innerProduct_symm (lam : ℝ) : (innerProduct p A N lam)ᵀ = innerProduct p A N lam := by
  unfold innerProduct
  simp only [Matrix.transpose_add, Matrix.transpose_mul, Matrix.transpose_smul, Matrix.transpose_transpose, Matrix.smul_mul, Matrix.mul_smul]

theorem cyc_const {φ : Fin n → ℝ} (h : ∀ i, φ (cyc i) = φ i) (i j : Fin n) : φ i = φ j := by
  have key : ∀ (k : ℕ) (hk : k < n), φ ⟨k, hk⟩ = φ ⟨0, by omega⟩ := by
    intro k
    induction k with
    | zero => intro _; rfl
    | succ k ih =>
      intro hk
      have h1 := h ⟨k, by omega⟩
      have : cyc (⟨k, by omega⟩ : Fin n) = ⟨k + 1, hk⟩ := Fin.ext (by rw [cyc_val]; exact if_neg (by simp only; omega))
      rw [this, ih (by omega)] at h1
      exact h1
  rw [key i.1 i.2, key j.1 j.2]

/-- The Laplacian of a polygon: not negative, and zero exactly on constants. -/
theorem laplacian_pos (h2 : 2 ≤ n) {lam : ℝ} (hA : 0 < A) (hl : 0 < lam) (φ : Fin n → ℝ) : 0 ≤ φ ⬝ᵥ (laplacian p A N lam *ᵥ φ) ∧
    (φ ⬝ᵥ (laplacian p A N lam *ᵥ φ) = 0 ↔ ∀ i j, φ i = φ j) := by
  rw [laplacian_form]
  obtain ⟨h3, h4⟩ := innerProduct_pos (p := p) (N := N) hA hl (derivative n *ᵥ φ)
  refine ⟨h3, fun h => ?_, fun h => ?_⟩
  · have e := h4 h
    refine cyc_const (fun i => ?_)
    have := congrFun e i
    rw [derivative_mulVec h2] at this
    simp only [Pi.zero_apply] at this
    linarith
  · have : derivative n *ᵥ φ = 0 := by
      funext i
      rw [derivative_mulVec h2, h (cyc i) i, sub_self]; rfl
    rw [this, zero_dotProduct]

/-- The part of the exterior derivative of a linear function that the flat operator does not reach: what leaves the plane. -/
theorem projection_linear (hA : A ≠ 0) (hN : N ⬝ᵥ N = 1) (hv : vecArea p = A • N) (g : Fin 3 → ℝ) (c : ℝ) (i : Fin n) :
    (projection p A N *ᵥ (derivative n *ᵥ (fun i => g ⬝ᵥ p i + c))) i = (N ⬝ᵥ g) * (N ⬝ᵥ (p (cyc i) - p i)) := by
  have h0 : vecArea p ≠ 0 := by
    rw [hv]
    intro h
    rcases smul_eq_zero.1 h with h | h
    · exact hA h
    · rw [h] at hN; simp at hN
  have h2 := two_le_of_area h0
  have e := gradient_linear hA hN hv g c
  rw [gradient_eq h2, Matrix.neg_mulVec, neg_inj, ← Matrix.mulVec_mulVec] at e
  rw [projection_mulVec, e, Pi.sub_apply, derivative_mulVec h2, flat_mulVec h2]
  have : N ⬝ᵥ (g - (N ⬝ᵥ g) • N) = 0 := by rw [dotProduct_sub, dotProduct_smul, hN, smul_eq_mul, mul_one, sub_self]
  rw [this, zero_smul, sub_zero, dotProduct_sub, dotProduct_smul, smul_eq_mul, dotProduct_comm _ N, dotProduct_comm _ g, dotProduct_sub g]
  ring

/-- A planar polygon gives the Dirichlet energy of linear functions. -/
theorem laplacian_linear {lam : ℝ} (hA : A ≠ 0) (hN : N ⬝ᵥ N = 1) (hv : vecArea p = A • N) (pl : ∀ i j, N ⬝ᵥ p i = N ⬝ᵥ p j)
    (g : Fin 3 → ℝ) (c : ℝ) (φ : Fin n → ℝ) : φ ⬝ᵥ (laplacian p A N lam *ᵥ (fun i => g ⬝ᵥ p i + c)) =
      -A * ((gradient p A N *ᵥ φ) ⬝ᵥ (g - (N ⬝ᵥ g) • N)) := by
  have h0 : vecArea p ≠ 0 := by
    rw [hv]
    intro h
    rcases smul_eq_zero.1 h with h | h
    · exact hA h
    · rw [h] at hN; simp at hN
  have h2 := two_le_of_area h0
  rw [laplacian_form, innerProduct_form]
  have e1 : projection p A N *ᵥ (derivative n *ᵥ (fun i => g ⬝ᵥ p i + c)) = 0 := by
    funext i
    rw [projection_linear hA hN hv, dotProduct_sub, pl (cyc i) i, sub_self, mul_zero]; rfl
  have e2 := gradient_linear hA hN hv g c
  rw [gradient_eq h2, Matrix.neg_mulVec, neg_inj, ← Matrix.mulVec_mulVec] at e2
  rw [e1, dotProduct_zero, mul_zero, add_zero, e2, gradient_eq h2, Matrix.neg_mulVec, neg_dotProduct, ← Matrix.mulVec_mulVec]
  ring

end Poly
end GC
