import Verif.PolygonBasic

/-! # The operators of one triangle -/

namespace GC
open Matrix
open Classical

namespace Poly
variable {p : Matrix (Fin 3) (Fin 3) ℝ} {A : ℝ} {N : Fin 3 → ℝ}

theorem cyc0 : cyc (0 : Fin 3) = 1 := rfl
theorem cyc1 : cyc (1 : Fin 3) = 2 := rfl
theorem cyc2 : cyc (2 : Fin 3) = 0 := rfl

theorem vecArea_tri : vecArea p = (1 / 2 : ℝ) • ((p 1 - p 0) ⨯₃ (p 2 - p 0)) := by
  unfold vecArea
  rw [Fin.sum_univ_three, cyc0, cyc1, cyc2]
  congr 1
  simp only [cross_apply]
  funext k
  fin_cases k <;> simp <;> ring

/-- Twice the weighted sum of edge vectors of a function on a triangle. -/
def tilt (p : Matrix (Fin 3) (Fin 3) ℝ) (φ : Fin 3 → ℝ) : Fin 3 → ℝ := (φ 2 - φ 0) • (p 1 - p 0) - (φ 1 - φ 0) • (p 2 - p 0)

theorem sharp_tri (φ : Fin 3 → ℝ) : sharp p A N *ᵥ (derivative 3 *ᵥ φ) = (1 / A) • N ⨯₃ ((1 / 2 : ℝ) • tilt p φ) := by
  have h := gradient_eq (p := p) (A := A) (N := N) (by norm_num : 2 ≤ 3)
  have e : sharp p A N *ᵥ (derivative 3 *ᵥ φ) = -(gradient p A N *ᵥ φ) := by
    rw [h, Matrix.neg_mulVec, neg_neg, Matrix.mulVec_mulVec]
  rw [e, gradient_mulVec (by norm_num), ← smul_neg, ← map_neg]
  congr 2
  rw [Fin.sum_univ_three, cyc0, cyc1, cyc2]
  funext k
  simp only [tilt, Pi.neg_apply, Pi.add_apply, Pi.smul_apply, Pi.sub_apply, smul_eq_mul]
  ring

section
variable (hA : A ≠ 0) (hN : N ⬝ᵥ N = 1) (hv : vecArea p = A • N)
include hA hN hv

theorem perp_tri : N ⬝ᵥ (p 1 - p 0) = 0 ∧ N ⬝ᵥ (p 2 - p 0) = 0 := by
  rw [vecArea_tri] at hv
  have e : N = (1 / A) • ((1 / 2 : ℝ) • ((p 1 - p 0) ⨯₃ (p 2 - p 0))) := by rw [hv, smul_smul, one_div_mul_cancel hA, one_smul]
  constructor
  · rw [e, smul_dotProduct, smul_dotProduct, dotProduct_comm, dot_self_cross, smul_zero, smul_zero]
  · rw [e, smul_dotProduct, smul_dotProduct, dotProduct_comm, dot_cross_self, smul_zero, smul_zero]

theorem planar_tri (i j : Fin 3) : N ⬝ᵥ p i = N ⬝ᵥ p j := by
  obtain ⟨h1, h2⟩ := perp_tri hA hN hv
  rw [dotProduct_sub] at h1 h2
  fin_cases i <;> fin_cases j <;> simp <;> linarith

theorem projection_tri (φ : Fin 3 → ℝ) : projection p A N *ᵥ (derivative 3 *ᵥ φ) = 0 := by
  set g := (1 / (2 * A)) • N ⨯₃ tilt p φ with hg
  have hw : ((p 1 - p 0) ⨯₃ (p 2 - p 0)) = (2 * A) • N := by
    have := hv
    rw [vecArea_tri] at this
    calc _ = (2 : ℝ) • ((1 / 2 : ℝ) • ((p 1 - p 0) ⨯₃ (p 2 - p 0))) := by rw [smul_smul]; norm_num
      _ = _ := by rw [this, smul_smul]
  have key : ∀ u v : Fin 3 → ℝ, ∀ s t : ℝ, u ⨯₃ v = (2 * A) • N → (N ⨯₃ (t • u - s • v)) ⬝ᵥ u = 2 * A * s ∧ (N ⨯₃ (t • u - s • v)) ⬝ᵥ v = 2 * A * t := by
    intro u v s t h
    have h0 := congrFun h 0; have h1 := congrFun h 1; have h2 := congrFun h 2
    rw [cross_apply] at h0 h1 h2
    simp at h0 h1 h2
    simp only [dotProduct, Fin.sum_univ_three] at hN
    simp only [cross_apply, dotProduct, Fin.sum_univ_three]
    simp
    constructor
    · linear_combination s * (N 0 * h0 + N 1 * h1 + N 2 * h2) + 2 * A * s * hN
    · linear_combination t * (N 0 * h0 + N 1 * h1 + N 2 * h2) + 2 * A * t * hN
  obtain ⟨k1, k2⟩ := key _ _ (φ 1 - φ 0) (φ 2 - φ 0) hw
  have g1 : g ⬝ᵥ (p 1 - p 0) = φ 1 - φ 0 := by
    rw [hg, smul_dotProduct]; unfold tilt; rw [k1, smul_eq_mul]; field_simp
  have g2 : g ⬝ᵥ (p 2 - p 0) = φ 2 - φ 0 := by
    rw [hg, smul_dotProduct]; unfold tilt; rw [k2, smul_eq_mul]; field_simp
  rw [dotProduct_sub] at g1 g2
  have e : φ = fun i => g ⬝ᵥ p i + (φ 0 - g ⬝ᵥ p 0) := by
    funext i
    fin_cases i <;> simp <;> linarith
  rw [e]
  funext i
  rw [projection_linear hA hN hv, dotProduct_sub, planar_tri hA hN hv (cyc i) i, sub_self, mul_zero]; rfl

/-- The Laplacian of a triangle is the cotangent Laplacian, whatever the stabilisation. -/
theorem laplacian_tri (lam : ℝ) (φ ψ : Fin 3 → ℝ) : φ ⬝ᵥ (laplacian p A N lam *ᵥ ψ) = 1 / (4 * A) *
    ((p 2 - p 1) ⬝ᵥ (p 0 - p 1) * ((φ 2 - φ 0) * (ψ 2 - ψ 0)) + (p 0 - p 2) ⬝ᵥ (p 1 - p 2) * ((φ 1 - φ 0) * (ψ 1 - ψ 0)) +
      (p 1 - p 0) ⬝ᵥ (p 2 - p 0) * ((φ 2 - φ 1) * (ψ 2 - ψ 1))) := by
  rw [laplacian_form, innerProduct_form, projection_tri hA hN hv, zero_dotProduct, mul_zero, add_zero, sharp_tri, sharp_tri]
  obtain ⟨h1, h2⟩ := perp_tri hA hN hv
  have ht : ∀ f : Fin 3 → ℝ, N ⬝ᵥ ((1 / 2 : ℝ) • tilt p f) = 0 := by
    intro f; unfold tilt
    rw [dotProduct_smul, dotProduct_sub, dotProduct_smul, dotProduct_smul, h1, h2]; simp
  rw [smul_dotProduct, dotProduct_smul, cross_dot_cross, hN, dotProduct_comm _ N, ht, ht]
  simp only [tilt, dotProduct, Fin.sum_univ_three, Pi.smul_apply, Pi.sub_apply, smul_eq_mul]
  field_simp
  ring

end

end Poly
end GC
