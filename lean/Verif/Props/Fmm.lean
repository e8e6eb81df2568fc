import Verif.Fmm
import Verif.MeshCheck
import Mathlib.Tactic.Linarith
import Mathlib.Tactic.LinearCombination
import Mathlib.Tactic.Positivity
import Mathlib.Tactic.FieldSimp

/-! # C48: fast marching seeds, C52: the triangle update -/

namespace GC
open Mesh Fmm

/-- Euclidean distance in the plane of the flattened triangle. -/
noncomputable def dist2d (P Q : V2) : ℝ := Real.sqrt ((P.x - Q.x) ^ 2 + (P.y - Q.y) ^ 2)

theorem dist2d_sq (P Q : V2) : dist2d P Q * dist2d P Q = (P.x - Q.x) ^ 2 + (P.y - Q.y) ^ 2 :=
  Real.mul_self_sqrt (by positivity)

theorem dist2d_nonneg (P Q : V2) : 0 ≤ dist2d P Q := Real.sqrt_nonneg _

/-- The point with barycentric coordinates `u, v, w`. -/
def baryPoint (A B C : V2) (u v w : ℝ) : V2 := ⟨u * A.x + v * B.x + w * C.x, u * A.y + v * B.y + w * C.y⟩

/-- The exact relation between the three values computed by the code and the true squared distances. -/
theorem fmm_dist2 (A B C : V2) (u v w : ℝ) (h1 : u + v + w = 1) (lAB lBC lCA : ℝ) (hAB : dist2d A B = lAB) (hBC : dist2d B C = lBC)
    (hCA : dist2d C A = lCA) :
    dist2A lAB lBC lCA u v w = dist2d (baryPoint A B C u v w) A ^ 2 - (lAB ^ 2 - lBC ^ 2) * (v * w) ∧
    dist2B lAB lBC lCA u v w = dist2d (baryPoint A B C u v w) B ^ 2 ∧
    dist2C lAB lBC lCA u v w = dist2d (baryPoint A B C u v w) C ^ 2 - (lBC ^ 2 - lAB ^ 2) * (u * v) := by
  have hw : w = 1 - u - v := by linarith
  have eA := dist2d_sq (baryPoint A B C u v w) A
  have eB := dist2d_sq (baryPoint A B C u v w) B
  have eC := dist2d_sq (baryPoint A B C u v w) C
  have e1 := dist2d_sq A B
  have e2 := dist2d_sq B C
  have e3 := dist2d_sq C A
  rw [hAB] at e1
  rw [hBC] at e2
  rw [hCA] at e3
  simp only [dist2A, dist2B, dist2C, pow_two]
  rw [eA, eB, eC, e1, e2, e3]
  simp only [baryPoint]
  subst hw
  refine ⟨by ring, by ring, by ring⟩

/-- **C48 (partial).** What holds: corner B always gets its true distance; corner A does if and only if `lAB = lBC` or the
source lies on a side through A (`v = 0` or `w = 0`); corner C does if and only if `lAB = lBC` or `u = 0` or `v = 0`.
Missing: in all other cases the seeds of A and C are wrong (`C48_fails`), because the last terms use `lAB2` and `lBC2`
in the place of `lBC2` and `lAB2`. Sources of edge type and vertex type get true distances. -/
theorem C48_seeds_partial (m : Mesh) (len sg : ℕ → ℝ) (x : ℝ) :
    (∀ (f : ℕ) (c : V3) (A B C : V2), c.x + c.y + c.z = 1 → 0 ≤ c.x → 0 ≤ c.y → 0 ≤ c.z →
      len (m.fHalfedge f / 2) = dist2d A B → len (m.heNext (m.fHalfedge f) / 2) = dist2d B C →
      len (m.heNext (m.heNext (m.fHalfedge f)) / 2) = dist2d C A →
      ∃ a b d, seeds m len sg x (.face f c) =
        [(x + sg (m.heVertex (m.fHalfedge f)) * a, m.heVertex (m.fHalfedge f)),
         (x + sg (m.heVertex (m.heNext (m.fHalfedge f))) * b, m.heVertex (m.heNext (m.fHalfedge f))),
         (x + sg (m.heVertex (m.heNext (m.heNext (m.fHalfedge f)))) * d, m.heVertex (m.heNext (m.heNext (m.fHalfedge f))))] ∧
      b = dist2d (baryPoint A B C c.x c.y c.z) B ∧
      (a = dist2d (baryPoint A B C c.x c.y c.z) A ↔ dist2d A B = dist2d B C ∨ c.y = 0 ∨ c.z = 0) ∧
      (d = dist2d (baryPoint A B C c.x c.y c.z) C ↔ dist2d A B = dist2d B C ∨ c.x = 0 ∨ c.y = 0)) ∧
    (∀ (e : ℕ) (t : ℝ) (A B : V2), 0 ≤ t → t ≤ 1 → len e = dist2d A B →
      seeds m len sg x (.edge e t) =
        [(x + sg (m.heVertex (2 * e)) * dist2d (baryPoint A B B (1 - t) t 0) A, m.heVertex (2 * e)),
         (x + sg (m.tip (2 * e)) * dist2d (baryPoint A B B (1 - t) t 0) B, m.tip (2 * e))]) ∧
    (∀ v, seeds m len sg x (.vertex v) = [(x, v)]) := by
  refine ⟨?_, ?_, fun _ => rfl⟩
  · intro f c A B C h1 hx hy hz hAB hBC hCA
    obtain ⟨eA, eB, eC⟩ := fmm_dist2 A B C c.x c.y c.z h1 _ _ _ hAB.symm hBC.symm hCA.symm
    refine ⟨_, _, _, rfl, ?_, ?_, ?_⟩
    · show Real.sqrt (dist2B (len (m.fHalfedge f / 2)) (len (m.heNext (m.fHalfedge f) / 2)) (len (m.heNext (m.heNext (m.fHalfedge f)) / 2)) c.x c.y c.z) = _
      rw [eB, Real.sqrt_sq (dist2d_nonneg _ _)]
    · show Real.sqrt (dist2A (len (m.fHalfedge f / 2)) (len (m.heNext (m.fHalfedge f) / 2)) (len (m.heNext (m.heNext (m.fHalfedge f)) / 2)) c.x c.y c.z) = _ ↔ _
      have hnn : 0 ≤ dist2A (len (m.fHalfedge f / 2)) (len (m.heNext (m.fHalfedge f) / 2)) (len (m.heNext (m.heNext (m.fHalfedge f)) / 2)) c.x c.y c.z := by
        have : dist2A (len (m.fHalfedge f / 2)) (len (m.heNext (m.fHalfedge f) / 2)) (len (m.heNext (m.heNext (m.fHalfedge f)) / 2)) c.x c.y c.z =
            len (m.fHalfedge f / 2) ^ 2 * (c.y * (1 - c.x - c.z)) + len (m.heNext (m.heNext (m.fHalfedge f)) / 2) ^ 2 * (c.z * (1 - c.x)) := by
          simp only [dist2A]; ring
        rw [this]
        have : 0 ≤ 1 - c.x - c.z := by linarith
        have : 0 ≤ 1 - c.x := by linarith
        positivity
      rw [Real.sqrt_eq_iff_mul_self_eq hnn (dist2d_nonneg _ _), eA, hAB, hBC]
      constructor
      · intro h
        have : (dist2d A B ^ 2 - dist2d B C ^ 2) * (c.y * c.z) = 0 := by linear_combination -h
        rcases mul_eq_zero.1 this with h | h
        · left
          have := sub_eq_zero.1 h
          exact (pow_left_inj₀ (dist2d_nonneg _ _) (dist2d_nonneg _ _) two_ne_zero).1 this
        · right; exact mul_eq_zero.1 h
      · rintro (h | h | h) <;> rw [h] <;> ring
    · show Real.sqrt (dist2C (len (m.fHalfedge f / 2)) (len (m.heNext (m.fHalfedge f) / 2)) (len (m.heNext (m.heNext (m.fHalfedge f)) / 2)) c.x c.y c.z) = _ ↔ _
      have hnn : 0 ≤ dist2C (len (m.fHalfedge f / 2)) (len (m.heNext (m.fHalfedge f) / 2)) (len (m.heNext (m.heNext (m.fHalfedge f)) / 2)) c.x c.y c.z := by
        have : dist2C (len (m.fHalfedge f / 2)) (len (m.heNext (m.fHalfedge f) / 2)) (len (m.heNext (m.heNext (m.fHalfedge f)) / 2)) c.x c.y c.z =
            len (m.heNext (m.fHalfedge f) / 2) ^ 2 * (c.y * (1 - c.x - c.z)) + len (m.heNext (m.heNext (m.fHalfedge f)) / 2) ^ 2 * (c.x * (1 - c.z)) := by
          simp only [dist2C]; ring
        rw [this]
        have : 0 ≤ 1 - c.x - c.z := by linarith
        have : 0 ≤ 1 - c.z := by linarith
        positivity
      rw [Real.sqrt_eq_iff_mul_self_eq hnn (dist2d_nonneg _ _), eC, hAB, hBC]
      constructor
      · intro h
        have : (dist2d A B ^ 2 - dist2d B C ^ 2) * (c.x * c.y) = 0 := by linear_combination h
        rcases mul_eq_zero.1 this with h | h
        · left
          have := sub_eq_zero.1 h
          exact (pow_left_inj₀ (dist2d_nonneg _ _) (dist2d_nonneg _ _) two_ne_zero).1 this
        · right; exact mul_eq_zero.1 h
      · rintro (h | h | h) <;> rw [h] <;> ring
  · intro e t A B h0 h1 hl
    have key : ∀ s : ℝ, 0 ≤ s → ∀ P Q : V2, P.x - Q.x = s * (A.x - B.x) → P.y - Q.y = s * (A.y - B.y) → dist2d P Q = s * dist2d A B := by
      intro s hs P Q hx hy
      unfold dist2d
      rw [hx, hy, show (s * (A.x - B.x)) ^ 2 + (s * (A.y - B.y)) ^ 2 = s ^ 2 * ((A.x - B.x) ^ 2 + (A.y - B.y) ^ 2) by ring,
        Real.sqrt_mul (by positivity), Real.sqrt_sq hs]
    have e1 : dist2d (baryPoint A B B (1 - t) t 0) A = t * dist2d A B := by
      rw [show dist2d (baryPoint A B B (1 - t) t 0) A = dist2d A (baryPoint A B B (1 - t) t 0) by unfold dist2d; congr 1; ring]
      exact key t h0 _ _ (by simp only [baryPoint]; ring) (by simp only [baryPoint]; ring)
    have e2 : dist2d (baryPoint A B B (1 - t) t 0) B = (1 - t) * dist2d A B :=
      key (1 - t) (by linarith) _ _ (by simp only [baryPoint]; ring) (by simp only [baryPoint]; ring)
    rw [e1, e2, ← hl]
    simp only [seeds, Mesh.eHalfedge, mul_assoc]

/-- **C48 (refutation).** In the triangle with sides 3, 4, 5 and the source at the barycentre, the seed of corner A is not
the distance from the source to A. -/
theorem C48_fails : ¬ ∀ (m : Mesh) (len sg : ℕ → ℝ) (x : ℝ) (f : ℕ) (c : V3) (A B C : V2), m.Valid → m.fLive f → m.fIsTriangle f →
    c.x + c.y + c.z = 1 → 0 ≤ c.x → 0 ≤ c.y → 0 ≤ c.z → len (m.fHalfedge f / 2) = dist2d A B →
    len (m.heNext (m.fHalfedge f) / 2) = dist2d B C → len (m.heNext (m.heNext (m.fHalfedge f)) / 2) = dist2d C A →
    (x + sg (m.heVertex (m.fHalfedge f)) * dist2d (baryPoint A B C c.x c.y c.z) A, m.heVertex (m.fHalfedge f)) ∈
      seeds m len sg x (.face f c) := by
  intro h
  have d1 : dist2d ⟨0, 0⟩ ⟨3, 0⟩ = 3 := by
    unfold dist2d; rw [show ((0:ℝ) - 3) ^ 2 + ((0:ℝ) - 0) ^ 2 = 3 ^ 2 by norm_num, Real.sqrt_sq (by norm_num)]
  have d2 : dist2d ⟨3, 0⟩ ⟨0, 4⟩ = 5 := by
    unfold dist2d; rw [show ((3:ℝ) - 0) ^ 2 + ((0:ℝ) - 4) ^ 2 = 5 ^ 2 by norm_num, Real.sqrt_sq (by norm_num)]
  have d3 : dist2d ⟨0, 4⟩ ⟨0, 0⟩ = 4 := by
    unfold dist2d; rw [show ((0:ℝ) - 0) ^ 2 + ((4:ℝ) - 0) ^ 2 = 4 ^ 2 by norm_num, Real.sqrt_sq (by norm_num)]
  have f0 : tetra.fHalfedge 0 = 0 := by decide +kernel
  have f1 : tetra.heNext 0 = 2 := by decide +kernel
  have f2 : tetra.heNext 2 = 4 := by decide +kernel
  have v0 : tetra.heVertex 0 = 0 := by decide +kernel
  have v1 : tetra.heVertex 2 = 1 := by decide +kernel
  have v2 : tetra.heVertex 4 = 2 := by decide +kernel
  have := h tetra (fun e => if e = 0 then 3 else if e = 1 then 5 else 4) (fun _ => 1) 0 0 ⟨1 / 3, 1 / 3, 1 / 3⟩ ⟨0, 0⟩ ⟨3, 0⟩ ⟨0, 4⟩
    tetra_valid (by decide +kernel) (by decide +kernel) (by norm_num) (by norm_num) (by norm_num) (by norm_num)
    (by rw [f0, d1]; norm_num) (by rw [f0, f1, d2]; norm_num) (by rw [f0, f1, f2, d3]; norm_num)
  simp only [seeds, f0, f1, f2, v0, v1, v2, List.mem_cons, Prod.mk.injEq, List.not_mem_nil, or_false, heEdge] at this
  rcases this with h | h | h
  · have h := h.1
    simp only [zero_add, one_mul] at h
    have h2 : (dist2d (baryPoint ⟨0, 0⟩ ⟨3, 0⟩ ⟨0, 4⟩ (1 / 3) (1 / 3) (1 / 3)) ⟨0, 0⟩) ^ 2 = 25 / 9 := by
      rw [pow_two, dist2d_sq]; simp only [baryPoint]; norm_num
    rw [h, Real.sq_sqrt (by simp only [dist2A]; norm_num)] at h2
    simp only [dist2A] at h2
    norm_num at h2
  · exact absurd h.2 (by decide)
  · exact absurd h.2 (by decide)

example : ∃ (A B C : V2) (c : V3), dist2d A B ≠ dist2d B C ∧ c.x + c.y + c.z = 1 ∧ c.y = 0 ∧ 0 < c.x ∧ 0 < c.z := by
  refine ⟨⟨0, 0⟩, ⟨3, 0⟩, ⟨0, 4⟩, ⟨1 / 2, 0, 1 / 2⟩, ?_, by norm_num, rfl, by norm_num, by norm_num⟩
  intro h
  have h1 := dist2d_sq ⟨0, 0⟩ ⟨3, 0⟩
  have h2 := dist2d_sq ⟨3, 0⟩ ⟨0, 4⟩
  rw [h] at h1
  norm_num at h1 h2
  linarith

/-! ### C52: the update of a triangle -/

/-- **C52.** In a triangle with corners A, B, C where `a = |BC|`, `b = |AC|` and the angle at C is at most a right angle: if
the update of C takes its first branch, then the linear function on the triangle with values `dA`, `dB` and the returned
value at C has a gradient `g` of length one (it solves the eikonal equation); otherwise the result is the distance along
one of the two sides. -/
theorem C52_eikonal (A B C : V2) (dA dB sign : ℝ) (theta : ℝ) (hth : 0 < theta) (hth2 : theta ≤ Real.pi / 2)
    (a b : ℝ) (ha : 0 < a) (hb : 0 < b) (hA : dist2d B C = a) (hB : dist2d A C = b)
    (hc : (A.x - C.x) * (B.x - C.x) + (A.y - C.y) * (B.y - C.y) = a * b * Real.cos theta) (hs : sign = 1 ∨ sign = -1) :
    let d := eikonal a b theta dA dB sign
    (∃ g : V2, g.dot (A.sub C) = dA - d ∧ g.dot (B.sub C) = dB - d ∧ g.norm2 = 1) ∨ d = b * sign + dA ∨ d = a * sign + dB := by
  intro d
  have hcos : 0 ≤ Real.cos theta := Real.cos_nonneg_of_neg_pi_div_two_le_of_le (by linarith) hth2
  have hcos1 : Real.cos theta < 1 := by
    have hpi := Real.pi_pos
    have := Real.cos_lt_cos_of_nonneg_of_le_pi (le_refl 0) (by linarith) hth
    rwa [Real.cos_zero] at this
  have e1 := dist2d_sq B C
  have e2 := dist2d_sq A C
  rw [hA] at e1
  rw [hB] at e2
  have hd : d = eikonal a b theta dA dB sign := rfl
  clear_value d
  unfold eikonal at hd
  rw [if_pos hth2] at hd
  simp only at hd
  generalize Real.cos theta = c at *
  have hQ : 0 < a * a + b * b - 2 * a * b * c := by nlinarith [mul_pos ha hb, sq_nonneg (a - b)]
  split_ifs at hd with h1 h2 h2
  all_goals first | (right; rcases min_choice (b * sign + dA) (a * sign + dB) with h | h <;> rw [h] at hd <;> [left; right] <;> exact hd) | skip
  all_goals
    left
    obtain ⟨hdisc, -, -, -⟩ := h2
    set S := Real.sqrt (2 * b * (dB - dA) * (a * c - b) * (2 * b * (dB - dA) * (a * c - b)) -
      4 * (a * a + b * b - 2 * a * b * c) * (b * b * ((dB - dA) * (dB - dA) - a * a * (1 - c * c)))) with hS
    have hSS := Real.mul_self_sqrt hdisc
    rw [← hS] at hSS
    clear_value S
    obtain ⟨t, ht⟩ : ∃ t, t = d - dA := ⟨_, rfl⟩
    have hq : (a * a + b * b - 2 * a * b * c) * t * t + 2 * b * (dB - dA) * (a * c - b) * t +
        b * b * ((dB - dA) * (dB - dA) - a * a * (1 - c * c)) = 0 := by
      have h2t : 2 * (a * a + b * b - 2 * a * b * c) * t = -(2 * b * (dB - dA) * (a * c - b)) + S ∨
          2 * (a * a + b * b - 2 * a * b * c) * t = -(2 * b * (dB - dA) * (a * c - b)) - S := by
        rw [ht, hd]
        first
          | (left; rw [add_sub_cancel_left, mul_div_cancel₀ _ (mul_pos two_pos hQ).ne']; done)
          | (right; rw [add_sub_cancel_left, mul_div_cancel₀ _ (mul_pos two_pos hQ).ne'])
      have h4 : 4 * (a * a + b * b - 2 * a * b * c) ≠ 0 := (mul_pos four_pos hQ).ne'
      apply mul_left_cancel₀ h4
      rcases h2t with h | h
      · linear_combination (2 * (a * a + b * b - 2 * a * b * c) * t + (2 * b * (dB - dA) * (a * c - b)) + S) * h + hSS
      · linear_combination (2 * (a * a + b * b - 2 * a * b * c) * t + (2 * b * (dB - dA) * (a * c - b)) - S) * h + hSS
    have hdA : dA - d = -t := by rw [ht]; ring
    have hdB : dB - d = (dB - dA) - t := by rw [ht]; ring
    rw [hdA, hdB]
    generalize dB - dA = u at *
    simp only [V2.sub, V2.dot, V2.norm2]
    generalize A.x - C.x = px at *
    generalize A.y - C.y = py at *
    generalize B.x - C.x = qx at *
    generalize B.y - C.y = qy at *
    have hD2 : (px * qy - py * qx) * (px * qy - py * qx) = a * a * (b * b) * (1 - c * c) := by
      linear_combination -(b * b) * e1 - (qx ^ 2 + qy ^ 2) * e2 - (px * qx + py * qy + a * b * c) * hc
    have hpos : 0 < a * a * (b * b) * (1 - c * c) := by
      have : 0 < 1 - c * c := by nlinarith
      positivity
    have hD : px * qy - py * qx ≠ 0 := by
      intro h; rw [h, zero_mul] at hD2; linarith
    refine ⟨⟨(-t * qy - (u - t) * py) / (px * qy - py * qx), (px * (u - t) + t * qx) / (px * qy - py * qx)⟩, ?_, ?_, ?_⟩
    · rw [div_mul_eq_mul_div, div_mul_eq_mul_div, ← add_div, div_eq_iff hD]; ring
    · rw [div_mul_eq_mul_div, div_mul_eq_mul_div, ← add_div, div_eq_iff hD]; ring
    · rw [div_mul_div_comm, div_mul_div_comm, ← add_div, div_eq_iff (mul_ne_zero hD hD), hD2, one_mul]
      linear_combination -(t * t) * e1 - ((u - t) * (u - t)) * e2 + 2 * t * (u - t) * hc + hq

/-- A case in which the first branch is taken: right angle at C, legs 1, wave front parallel to AB. -/
example : eikonal 1 1 (Real.pi / 2) 0 0 1 = Real.sqrt 2 / 2 := by
  have h4 : Real.sqrt 8 = 2 * Real.sqrt 2 := by
    rw [show (8 : ℝ) = 2 ^ 2 * 2 by norm_num, Real.sqrt_mul (by norm_num), Real.sqrt_sq (by norm_num)]
  have h2 : 0 < Real.sqrt 2 := Real.sqrt_pos.2 (by norm_num)
  unfold eikonal
  rw [if_pos (le_refl _)]
  simp only [Real.cos_pi_div_two]
  rw [if_pos]
  · norm_num [h4]; ring
  · refine ⟨by norm_num, ?_, ?_, Or.inl trivial⟩
    · norm_num
    · norm_num [h4]

end GC
