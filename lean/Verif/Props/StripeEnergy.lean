import Verif.StripeEnergy
import Verif.Props.Uniformize

/-! # C97: the energy matrix of stripe patterns -/

namespace GC
open Classical Finset
namespace Mesh
variable {m : Mesh} {len : ℕ → ℝ}

/-- **C97.** The matrix is symmetric, and its quadratic form is the sum over the edges of the weight times the squared difference between the value at the second vertex and the value at the first vertex turned by the
one-form, conjugated where the edge crosses sheets, plus the shift. With weights that are not negative it is positive definite. -/
theorem C97_energy (m : Mesh) (len : ℕ → ℝ) (omega : ℕ → ℝ) (crosses : ℕ → Bool) (branch : ℕ → ℤ) (hv : m.Valid) :
    ∃ (A : ℕ → ℕ → ℝ) (ind : ℕ → ℕ) (cw : ℕ → ℝ), m.vertexEnergyMatrix len omega crosses branch = .ok A ∧ m.getVertexIndices = .ok ind ∧ m.halfedgeCotanWeights len = .ok cw ∧
      (∀ x y : ℕ → ℝ, ∑ i ∈ range (2 * m.nV), ∑ j ∈ range (2 * m.nV), x i * A i j * y j = ∑ i ∈ range (2 * m.nV), ∑ j ∈ range (2 * m.nV), y i * A i j * x j) ∧
      (∀ (x : ℕ → ℝ) (z : ℕ → ℂ), (∀ v, m.vLive v → z v = ⟨x (2 * ind v), x (2 * ind v + 1)⟩) →
        ∑ i ∈ range (2 * m.nV), ∑ j ∈ range (2 * m.nV), x i * A i j * x j =
          ∑ e ∈ m.edges, m.stripeWeight cw branch e * ‖z (m.heVertex (2 * e + 1)) -
            (if crosses e then starRingEnd ℂ (Complex.exp (omega e * Complex.I) * z (m.heVertex (2 * e))) else Complex.exp (omega e * Complex.I) * z (m.heVertex (2 * e)))‖ ^ 2 +
          1e-4 * ∑ i ∈ range (2 * m.nV), x i ^ 2) ∧
      ((∀ e ∈ m.edges, 0 ≤ m.stripeWeight cw branch e) → ∀ x : ℕ → ℝ, (∃ i < 2 * m.nV, x i ≠ 0) → 0 < ∑ i ∈ range (2 * m.nV), ∑ j ∈ range (2 * m.nV), x i * A i j * x j) := by
  obtain ⟨vs, hs, is, es, fs, R⟩ := hv.ranges
  obtain ⟨cw, c1, -⟩ := halfedgeCotanWeights_ok (len := len) hv R
  set g := fun e =>
    let w := m.stripeWeight cw branch e
    let i := 2 * number vs (m.heVertex (eHalfedge e))
    let j := 2 * number vs (m.heVertex (twin (eHalfedge e)))
    let rx := w * Real.cos (omega e)
    let ry := w * Real.sin (omega e)
    let sx := if crosses e then -rx else rx
    let sy := if crosses e then -ry else ry
    [(i, i, w), (i + 1, i + 1, w), (j, j, w), (j + 1, j + 1, w), (i, j, -rx), (i + 1, j, ry), (j, i, -rx), (j, i + 1, ry),
      (i, j + 1, -sy), (i + 1, j + 1, -sx), (j + 1, i, -sy), (j + 1, i + 1, -sx)] with hg
  have bd : ∀ t ∈ es.flatMap g, t.1 < 2 * m.nV ∧ t.2.1 < 2 * m.nV := by
    intro t ht
    obtain ⟨e, he, h⟩ := List.mem_flatMap.1 ht
    have hl := (mem_edges hv).1 ((R.me e).1 he)
    have b1 : number vs (m.heVertex (eHalfedge e)) < m.nV := R.iv.2.1 _ (hv.vertex_live _ hl)
    have b2 : number vs (m.heVertex (twin (eHalfedge e))) < m.nV := R.iv.2.1 _ (hv.vertex_live _ (hv.twin_live _ hl))
    simp only [hg, List.mem_cons, List.not_mem_nil, or_false] at h
    rcases h with rfl | rfl | rfl | rfl | rfl | rfl | rfl | rfl | rfl | rfl | rfl | rfl <;> simp only <;> omega
  have ok : m.vertexEnergyMatrix len omega crosses branch = .ok (fun i j => entry (es.flatMap g) i j + if i = j then 1e-4 else 0) := by
    simp only [vertexEnergyMatrix, bind, Except.bind, R.iv.1, c1, R.e]
    rw [setFromTriplets_ok bd]
  have form : ∀ x y : ℕ → ℝ, ∑ i ∈ range (2 * m.nV), ∑ j ∈ range (2 * m.nV), x i * (entry (es.flatMap g) i j + if i = j then 1e-4 else 0) * y j =
      ∑ e ∈ m.edges, ((g e).map (fun t => x t.1 * t.2.2 * y t.2.1)).sum + 1e-4 * ∑ i ∈ range (2 * m.nV), x i * y i := by
    intro x y
    rw [← sum_of_nodup R.ne R.me, ← sum_flatMap, ← entry_pair bd, mul_sum, ← sum_add_distrib]
    refine sum_congr rfl (fun i hi => ?_)
    rw [show 1e-4 * (x i * y i) = ∑ j ∈ range (2 * m.nV), x i * (if i = j then 1e-4 else 0) * y j by
      rw [sum_eq_single i]
      · rw [if_pos rfl]; ring
      · intro j _ h
        rw [if_neg (Ne.symm h)]; ring
      · intro h
        exact absurd hi h, ← sum_add_distrib]
    refine sum_congr rfl (fun j _ => by ring)
  have quad : ∀ (x : ℕ → ℝ) (z : ℕ → ℂ), (∀ v, m.vLive v → z v = ⟨x (2 * number vs v), x (2 * number vs v + 1)⟩) →
        ∑ i ∈ range (2 * m.nV), ∑ j ∈ range (2 * m.nV), x i * (entry (es.flatMap g) i j + if i = j then 1e-4 else 0) * x j =
          ∑ e ∈ m.edges, m.stripeWeight cw branch e * ‖z (m.heVertex (2 * e + 1)) -
            (if crosses e then starRingEnd ℂ (Complex.exp (omega e * Complex.I) * z (m.heVertex (2 * e))) else Complex.exp (omega e * Complex.I) * z (m.heVertex (2 * e)))‖ ^ 2 +
          1e-4 * ∑ i ∈ range (2 * m.nV), x i ^ 2 := by
    intro x z hz
    rw [form]
    congr 1
    · refine sum_congr rfl (fun e he => ?_)
      have hl := (mem_edges hv).1 he
      have ht := hv.twin_live _ hl
      have et : twin (2 * e) = 2 * e + 1 := twin_two_mul e
      rw [et] at ht
      rw [hz _ (hv.vertex_live _ hl), hz _ (hv.vertex_live _ ht), ← Complex.normSq_eq_norm_sq]
      have ex : Complex.exp (omega e * Complex.I) = ⟨Real.cos (omega e), Real.sin (omega e)⟩ := by
        rw [Complex.exp_mul_I]
        apply Complex.ext <;> simp [Complex.cos_ofReal_re, Complex.sin_ofReal_re, Complex.cos_ofReal_im, Complex.sin_ofReal_im]
      have sc := Real.sin_sq_add_cos_sq (omega e)
      rw [ex]
      simp only [hg, eHalfedge, et]
      set w := m.stripeWeight cw branch e
      set a := x (2 * number vs (m.heVertex (2 * e)))
      set b := x (2 * number vs (m.heVertex (2 * e)) + 1)
      set c := x (2 * number vs (m.heVertex (2 * e + 1)))
      set d := x (2 * number vs (m.heVertex (2 * e + 1)) + 1)
      cases crosses e
      · simp only [Bool.false_eq_true, if_false, List.map_cons, List.map_nil, List.sum_cons, List.sum_nil, Complex.normSq_apply, Complex.sub_re, Complex.sub_im, Complex.mul_re, Complex.mul_im]
        linear_combination (-w * (a ^ 2 + b ^ 2)) * sc
      · simp only [if_true, List.map_cons, List.map_nil, List.sum_cons, List.sum_nil, Complex.normSq_apply, Complex.sub_re, Complex.sub_im, Complex.mul_re, Complex.mul_im, Complex.conj_re, Complex.conj_im]
        linear_combination (-w * (a ^ 2 + b ^ 2)) * sc
    · congr 1
      exact sum_congr rfl (fun i _ => by ring)
  refine ⟨_, number vs, cw, ok, R.iv.1, c1, fun x y => ?_, quad, fun hw x hx => ?_⟩
  · rw [form, form]
    congr 1
    · refine sum_congr rfl (fun e _ => ?_)
      simp only [hg, List.map_cons, List.map_nil, List.sum_cons, List.sum_nil]
      ring
    · congr 1
      exact sum_congr rfl (fun i _ => mul_comm _ _)
  · rw [quad x (fun v => ⟨x (2 * number vs v), x (2 * number vs v + 1)⟩) (fun _ _ => rfl)]
    obtain ⟨i, hi, h⟩ := hx
    refine add_pos_of_nonneg_of_pos (sum_nonneg (fun e he => mul_nonneg (hw e he) (by positivity))) (mul_pos (by norm_num) ?_)
    exact lt_of_lt_of_le (by positivity : 0 < x i ^ 2) (single_le_sum (f := fun i => x i ^ 2) (fun j _ => sq_nonneg _) (mem_range.2 hi))

/-- The triangle with an interior vertex and edges of length one; one face has a branch index. All weights are nonnegative. -/
example : wheel.Valid ∧ ∃ (cw : ℕ → ℝ) (branch : ℕ → ℤ), wheel.halfedgeCotanWeights (fun _ => 1) = .ok cw ∧ branch (wheel.heFace 0) ≠ 0 ∧ (∀ e ∈ wheel.edges, 0 ≤ wheel.stripeWeight cw branch e) ∧
    ∃ i < 2 * wheel.nV, (fun i : ℕ => (i : ℝ)) i ≠ 0 := by
  obtain ⟨vs, hs, is, es, fs, R⟩ := wheel_valid.ranges
  obtain ⟨cw, c1, c2⟩ := halfedgeCotanWeights_ok (len := fun _ => 1) wheel_valid R
  have nn : ∀ i, 0 ≤ cw i := fun i => by
    rw [c2]
    split
    · unfold halfedgeCotanWeight
      split
      · have : 0 ≤ wheel.faceArea (fun _ => 1) (wheel.heFace i) := Real.sqrt_nonneg _
        exact div_nonneg (div_nonneg (by norm_num) (by linarith)) (by norm_num)
      · exact le_refl _
    · exact le_refl _
  refine ⟨wheel_valid, cw, fun f => if f = wheel.heFace 0 then 1 else 0, c1, by simp, fun e _ => ?_, 1, by decide +kernel, by norm_num⟩
  unfold stripeWeight
  refine add_nonneg ?_ ?_ <;> split <;> first | exact nn _ | exact le_refl _

end Mesh
end GC
