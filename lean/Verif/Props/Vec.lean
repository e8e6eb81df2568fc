import Verif.Vec
import Mathlib.LinearAlgebra.CrossProduct
import Mathlib.Tactic.LinearCombination
import Mathlib.Tactic.FieldSimp
import Mathlib.Tactic.Positivity

/-! # Property C42: vector and quaternion algebra -/

namespace GC
open Real

/-! ## Vector2 and the complex numbers -/

/-- The complex number a `Vector2` stands for, `operator std::complex<double>`, vector2.ipp. -/
def V2.toC (u : V2) : ℂ := ⟨u.x, u.y⟩

theorem V2.toC_inj {u v : V2} (h : u.toC = v.toC) : u = v := by
  have h1 := congrArg Complex.re h
  have h2 := congrArg Complex.im h
  exact V2.ext h1 h2

theorem V2.norm_toC (u : V2) : ‖u.toC‖ = u.norm := by
  rw [Complex.norm_def, Complex.normSq_apply]; rfl

theorem V2.norm_pos {u : V2} (h : u.toC ≠ 0) : 0 < u.norm := by rw [← V2.norm_toC]; exact norm_pos_iff.2 h

theorem V2.norm_sq (u : V2) : u.norm * u.norm = u.x * u.x + u.y * u.y :=
  Real.mul_self_sqrt (by nlinarith [mul_self_nonneg u.x, mul_self_nonneg u.y])

/-- **C42 (Vector2).** The arithmetic of `Vector2` is that of the complex numbers. -/
theorem C42_vector2_complex (u v : V2) (s : ℝ) :
    (u.add v).toC = u.toC + v.toC ∧ (u.sub v).toC = u.toC - v.toC ∧ (u.mul v).toC = u.toC * v.toC ∧
    (u.smul s).toC = u.toC * s ∧ u.neg.toC = -u.toC ∧ u.conj.toC = starRingEnd ℂ u.toC ∧
    (v.toC ≠ 0 → (u.div v).toC = u.toC / v.toC) ∧ (s ≠ 0 → (u.sdiv s).toC = u.toC / s) ∧
    (u.toC ≠ 0 → u.inv.toC = u.toC⁻¹) ∧
    u.norm = ‖u.toC‖ ∧ u.norm2 = Complex.normSq u.toC ∧ u.arg = Complex.arg u.toC := by
  have hd : ∀ u v : V2, v.toC ≠ 0 → (u.div v).toC = u.toC / v.toC := by
    intro u v hv
    rw [eq_div_iff hv]
    have hn : v.x * v.x + v.y * v.y ≠ 0 := by
      have := V2.norm_sq v; have := V2.norm_pos hv; nlinarith
    apply Complex.ext
    · simp only [V2.toC, V2.div, V2.sdiv, Complex.mul_re]
      linear_combination u.x * one_div_mul_cancel hn
    · simp only [V2.toC, V2.div, V2.sdiv, Complex.mul_im]
      linear_combination u.y * one_div_mul_cancel hn
  refine ⟨?_, ?_, ?_, ?_, ?_, ?_, hd u v, ?_, ?_, (V2.norm_toC u).symm, ?_, rfl⟩
  · apply Complex.ext <;> simp [V2.toC, V2.add]
  · apply Complex.ext <;> simp [V2.toC, V2.sub]
  · apply Complex.ext <;> simp [V2.toC, V2.mul]
  · apply Complex.ext <;> simp [V2.toC, V2.smul]
  · apply Complex.ext <;> simp [V2.toC, V2.neg]
  · apply Complex.ext <;> simp [V2.toC, V2.conj]
  · intro hs
    rw [eq_div_iff (by exact_mod_cast hs)]
    apply Complex.ext <;> simp [V2.toC, V2.sdiv, hs]
  · intro hu
    rw [V2.inv, hd _ _ hu, ← one_div]
    congr 1
  · rw [Complex.normSq_apply]; rfl

/-- **C42 (rotations).** `rotate90` multiplies by `i`; `rotateCCW` by `exp (i θ)`; `rotateCW`, and `rotate` (as its
declaration warns), by `exp (-i θ)`; `fromAngle` is `exp (i θ)`. -/
theorem C42_vector2_rotate (u : V2) (th : ℝ) :
    u.rotate90.toC = Complex.I * u.toC ∧ (u.rotateCCW th).toC = Complex.exp (th * Complex.I) * u.toC ∧
    (u.rotateCW th).toC = Complex.exp (-(th * Complex.I)) * u.toC ∧
    (u.rotate th).toC = Complex.exp (-(th * Complex.I)) * u.toC ∧ (V2.fromAngle th).toC = Complex.exp (th * Complex.I) := by
  have hcw : ∀ t : ℝ, (u.rotateCW t).toC = Complex.exp (-(t * Complex.I)) * u.toC := by
    intro t
    rw [show -((t : ℂ) * Complex.I) = ((-t : ℝ) : ℂ) * Complex.I by push_cast; ring, Complex.exp_mul_I,
      ← Complex.ofReal_cos, ← Complex.ofReal_sin]
    apply Complex.ext
    · simp [-Complex.ofReal_cos, -Complex.ofReal_sin, V2.toC, V2.rotateCW]
    · simp [-Complex.ofReal_cos, -Complex.ofReal_sin, V2.toC, V2.rotateCW]; ring
  refine ⟨?_, ?_, hcw th, hcw th, ?_⟩
  · apply Complex.ext <;> simp [V2.toC, V2.rotate90]
  · have := hcw (-th)
    rw [V2.rotateCCW, this]; push_cast; rw [neg_mul, neg_neg]
  · rw [Complex.exp_mul_I, ← Complex.ofReal_cos, ← Complex.ofReal_sin]
    apply Complex.ext <;> simp [-Complex.ofReal_cos, -Complex.ofReal_sin, V2.toC, V2.fromAngle]

theorem V2.normalize_eq {u : V2} (h : u.toC ≠ 0) : u.normalize.toC * (u.norm : ℂ) = u.toC := by
  have hp := V2.norm_pos h
  have e : u.normalize = u.smul (1 / u.norm) := rfl
  rw [e]
  apply Complex.ext
  · simp [V2.toC, V2.smul]; field_simp
  · simp [V2.toC, V2.smul]; field_simp

theorem V2.dot_normalize {u v : V2} (hu : u.toC ≠ 0) (hv : v.toC ≠ 0) :
    u.norm * v.norm * u.normalize.dot v.normalize = u.dot v ∧ u.norm * v.norm * u.normalize.cross v.normalize = u.cross v := by
  have hp := V2.norm_pos hu
  have hq := V2.norm_pos hv
  have e : u.normalize = u.smul (1 / u.norm) := rfl
  have e' : v.normalize = v.smul (1 / v.norm) := rfl
  rw [e, e']
  constructor
  · simp only [V2.dot, V2.smul]; field_simp
  · simp only [V2.cross, V2.smul]; field_simp

theorem V2.lagrange (u v : V2) : u.dot v * u.dot v + u.cross v * u.cross v = (u.norm * u.norm) * (v.norm * v.norm) := by
  rw [V2.norm_sq, V2.norm_sq]; simp only [V2.dot, V2.cross]; ring

/-- **C42 (unit vectors).** `normalize` keeps the direction and has length one; `normalizeCutoff` agrees with it above
the cutoff and leaves shorter vectors alone. -/
theorem C42_vector2_normalize (u : V2) (h : u.toC ≠ 0) (mag : ℝ) :
    u.normalize.norm = 1 ∧ u.normalize.smul u.norm = u ∧
    u.normalizeCutoff mag = if u.norm ≤ mag then u else u.normalize := by
  have hp := V2.norm_pos h
  have e := V2.normalize_eq h
  refine ⟨?_, ?_, ?_⟩
  · have h2 := congrArg (‖·‖) e
    simp only [norm_mul, Complex.norm_real, Real.norm_eq_abs, abs_of_pos hp, V2.norm_toC] at h2
    exact mul_right_cancel₀ hp.ne' (by rw [h2, one_mul])
  · apply V2.toC_inj; rw [← e, (C42_vector2_complex _ u _).2.2.2.1]
  · unfold V2.normalizeCutoff
    have : Real.sqrt (u.x * u.x + u.y * u.y) = u.norm := rfl
    simp only [this]
    split_ifs with hm
    · ext <;> simp [V2.smul]
    · rfl

theorem clampOne {d : ℝ} (h : d * d ≤ 1) : max (-1) (min 1 d) = d := by
  rw [min_eq_right (by nlinarith), max_eq_right (by nlinarith)]

/-- **C42 (angle).** `angle` is the unsigned angle: in `[0, π]`, with the cosine of the law of cosines. -/
theorem C42_vector2_angle (u v : V2) (hu : u.toC ≠ 0) (hv : v.toC ≠ 0) :
    0 ≤ u.angle v ∧ u.angle v ≤ π ∧ u.norm * v.norm * cos (u.angle v) = u.dot v := by
  refine ⟨arccos_nonneg _, arccos_le_pi _, ?_⟩
  have hl := V2.lagrange u.normalize v.normalize
  rw [(C42_vector2_normalize u hu 0).1, (C42_vector2_normalize v hv 0).1] at hl
  have hd : u.normalize.dot v.normalize * u.normalize.dot v.normalize ≤ 1 := by
    nlinarith [mul_self_nonneg (u.normalize.cross v.normalize)]
  rw [V2.angle, clampOne hd, cos_arccos (by nlinarith) (by nlinarith), (V2.dot_normalize hu hv).1]

/-- **C42 (oriented angle).** Turning the direction of `u` counter-clockwise by `orientedAngle u v` gives the
direction of `v`; the angle lies in `(-π, π]`. -/
theorem C42_vector2_orientedAngle (u v : V2) (hu : u.toC ≠ 0) (hv : v.toC ≠ 0) :
    -π < u.orientedAngle v ∧ u.orientedAngle v ≤ π ∧ u.normalize.rotateCCW (u.orientedAngle v) = v.normalize := by
  refine ⟨Complex.neg_pi_lt_arg _, Complex.arg_le_pi _, ?_⟩
  have hl := V2.lagrange u.normalize v.normalize
  have hnu := (C42_vector2_normalize u hu 0).1
  have hsu := V2.norm_sq u.normalize
  rw [hnu, (C42_vector2_normalize v hv 0).1] at hl
  rw [hnu] at hsu
  obtain ⟨z, hz⟩ : ∃ z : ℂ, z = ⟨u.normalize.dot v.normalize, u.normalize.cross v.normalize⟩ := ⟨_, rfl⟩
  have hn : ‖z‖ = 1 := by
    rw [Complex.norm_def, Complex.normSq_apply, hz]; simp only; rw [hl]; simp
  have ha : u.orientedAngle v = Complex.arg z := by rw [hz]; rfl
  have hz0 : z ≠ 0 := by intro h; rw [h] at hn; simp at hn
  have hc : cos (Complex.arg z) = z.re := by rw [Complex.cos_arg hz0, hn, div_one]
  have hs : sin (Complex.arg z) = z.im := by rw [Complex.sin_arg, hn, div_one]
  have hre : z.re = u.normalize.dot v.normalize := by rw [hz]
  have him : z.im = u.normalize.cross v.normalize := by rw [hz]
  rw [ha]
  unfold V2.rotateCCW V2.rotateCW
  rw [cos_neg, sin_neg, hc, hs, hre, him]
  simp only [V2.dot, V2.cross]
  ext
  · simp only; linear_combination (-v.normalize.x) * hsu
  · simp only; linear_combination (-v.normalize.y) * hsu

example : (V2.mk 3 4).toC ≠ 0 ∧ (V2.mk 3 4).norm = 5 ∧ ((V2.mk 3 4).mul ⟨1, 2⟩) = ⟨-5, 10⟩ := by
  refine ⟨?_, ?_, ?_⟩
  · intro h; have := congrArg Complex.re h; norm_num [V2.toC] at this
  · unfold V2.norm; rw [show (3 : ℝ) * 3 + 4 * 4 = 5 ^ 2 by norm_num]; exact Real.sqrt_sq (by norm_num)
  · norm_num [V2.mul]

/-! ## Vector3 -/

/-- The coordinate vector. -/
def V3.toFun (u : V3) : Fin 3 → ℝ := ![u.x, u.y, u.z]

def V3.zero : V3 := ⟨0, 0, 0⟩

theorem V3.norm_sq (u : V3) : u.norm * u.norm = u.dot u :=
  Real.mul_self_sqrt (by nlinarith [mul_self_nonneg u.x, mul_self_nonneg u.y, mul_self_nonneg u.z])

theorem V3.norm_nonneg (u : V3) : 0 ≤ u.norm := Real.sqrt_nonneg _

theorem V3.dot_self_pos {u : V3} (h : u ≠ V3.zero) : 0 < u.dot u := by
  rcases lt_or_eq_of_le (show 0 ≤ u.dot u by unfold V3.dot; nlinarith [mul_self_nonneg u.x, mul_self_nonneg u.y, mul_self_nonneg u.z]) with h1 | h1
  · exact h1
  · exfalso; apply h
    unfold V3.dot at h1
    have hx : u.x * u.x = 0 := by nlinarith [mul_self_nonneg u.x, mul_self_nonneg u.y, mul_self_nonneg u.z]
    have hy : u.y * u.y = 0 := by nlinarith [mul_self_nonneg u.x, mul_self_nonneg u.y, mul_self_nonneg u.z]
    have hz : u.z * u.z = 0 := by nlinarith [mul_self_nonneg u.x, mul_self_nonneg u.y, mul_self_nonneg u.z]
    exact V3.ext (mul_self_eq_zero.1 hx) (mul_self_eq_zero.1 hy) (mul_self_eq_zero.1 hz)

theorem V3.norm_pos {u : V3} (h : u ≠ V3.zero) : 0 < u.norm := by
  have := V3.dot_self_pos h
  have h2 := V3.norm_sq u
  rcases lt_or_eq_of_le (V3.norm_nonneg u) with h3 | h3
  · exact h3
  · rw [← h3] at h2; linarith

/-- **C42 (cross and dot product).** They are the standard products of ℝ³. -/
theorem C42_vector3_products (u v : V3) :
    (u.cross v).toFun = crossProduct u.toFun v.toFun ∧ u.dot v = dotProduct u.toFun v.toFun ∧
    u.norm = ‖WithLp.toLp 2 u.toFun‖ := by
  refine ⟨?_, ?_, ?_⟩
  · funext i
    fin_cases i <;> simp [V3.toFun, V3.cross, cross_apply] 
  · simp [V3.toFun, V3.dot, dotProduct, Fin.sum_univ_three]
  · rw [EuclideanSpace.norm_eq]
    simp [V3.norm, V3.toFun, Fin.sum_univ_three, pow_two]

theorem V3.smul_norm_normalize {u : V3} (h : u ≠ V3.zero) : u.normalize.smul u.norm = u := by
  have hp := V3.norm_pos h
  have e : u.normalize = u.smul (1 / u.norm) := rfl
  rw [e]; ext <;> simp only [V3.smul] <;> field_simp

theorem V3.normalize_dot {u : V3} (h : u ≠ V3.zero) : u.normalize.dot u.normalize = 1 := by
  have hp := V3.norm_pos h
  have h2 := V3.norm_sq u
  have e : u.normalize = u.smul (1 / u.norm) := rfl
  rw [e]; simp only [V3.dot, V3.smul] at *; field_simp; nlinarith

/-- **C42 (normalize).** -/
theorem C42_vector3_normalize (u : V3) (h : u ≠ V3.zero) : u.normalize.norm = 1 ∧ u.normalize.smul u.norm = u := by
  refine ⟨?_, V3.smul_norm_normalize h⟩
  have h1 := V3.norm_sq u.normalize
  rw [V3.normalize_dot h] at h1
  have := V3.norm_nonneg u.normalize
  nlinarith

/-- **C42 (removeComponent).** The result is orthogonal to the unit direction and differs from the vector by a
multiple of the direction; so it is the orthogonal projection. -/
theorem C42_vector3_removeComponent (u d : V3) (hd : d.dot d = 1) :
    d.dot (u.removeComponent d) = 0 ∧ (∃ c, u = (u.removeComponent d).add (d.smul c)) ∧
    ∀ w c, u = w.add (d.smul c) → d.dot w = 0 → w = u.removeComponent d := by
  refine ⟨?_, ⟨d.dot u, ?_⟩, ?_⟩
  · simp only [V3.removeComponent, V3.dot, V3.sub, V3.smul] at *
    linear_combination (-(d.x * u.x + d.y * u.y + d.z * u.z)) * hd
  · ext <;> simp [V3.removeComponent, V3.dot, V3.sub, V3.smul, V3.add]
  · rintro w c rfl hw
    have hc : d.dot (w.add (d.smul c)) = c := by
      simp only [V3.dot, V3.add, V3.smul] at *
      linear_combination hw + c * hd
    unfold V3.removeComponent; rw [hc]
    ext <;> simp [V3.sub, V3.smul, V3.add]

/-- Rodrigues' formula for the rotation by `th` about the unit vector `n`. -/
noncomputable def rodrigues (n u : V3) (th : ℝ) : V3 :=
  ((u.smul (cos th)).add ((n.cross u).smul (sin th))).add (n.smul (n.dot u * (1 - cos th)))

/-- **C42 (rotateAround).** `rotateAround` is the right-handed rotation about the axis, given by Rodrigues'
formula, also when the vector is parallel to the axis. -/
theorem C42_vector3_rotateAround (u axis : V3) (h : axis ≠ V3.zero) (th : ℝ) :
    u.rotateAround axis th = rodrigues axis.normalize u th := by
  have hn := V3.normalize_dot h
  unfold V3.rotateAround rodrigues
  generalize axis.normalize = n at *
  simp only
  generalize ht : V3.sub u (V3.smul n (V3.dot u n)) = t
  have htn : n.dot t = 0 := by
    rw [← ht]; simp only [V3.dot, V3.sub, V3.smul] at *
    linear_combination (-(n.x * u.x + n.y * u.y + n.z * u.z)) * hn
  have hu : u = t.add (n.smul (V3.dot u n)) := by rw [← ht]; ext <;> simp [V3.add, V3.sub]
  have hnu : n.dot u = V3.dot u n := by simp only [V3.dot]; ring
  generalize V3.dot u n = c at *
  rw [hnu]
  by_cases h0 : t = V3.zero
  · have : ¬ V3.norm2 t > 0 := by rw [h0]; simp [V3.norm2, V3.zero]
    rw [if_neg this, hu, h0]
    ext <;> simp only [V3.add, V3.smul, V3.zero, V3.cross] <;> ring
  · have hpos : V3.norm2 t > 0 := V3.dot_self_pos h0
    rw [if_pos hpos]
    have hsm := V3.smul_norm_normalize h0
    generalize hb : t.normalize = b at *
    generalize t.norm = k at *
    rw [hu, ← hsm]
    ext <;> simp only [V3.add, V3.smul, V3.lmul, V3.cross] <;> ring

/-- **C42 (rotateAround is a rotation).** It keeps inner products and cross products (so lengths, angles and
orientation), fixes the axis, and angles add up. -/
theorem C42_vector3_rotation_laws (u v axis : V3) (h : axis ≠ V3.zero) (s t : ℝ) :
    (u.rotateAround axis s).dot (v.rotateAround axis s) = u.dot v ∧
    (u.rotateAround axis s).cross (v.rotateAround axis s) = (u.cross v).rotateAround axis s ∧
    axis.rotateAround axis s = axis ∧
    (u.rotateAround axis s).rotateAround axis t = u.rotateAround axis (s + t) ∧ u.rotateAround axis 0 = u := by
  have hn := V3.normalize_dot h
  have ha := V3.smul_norm_normalize h
  simp only [C42_vector3_rotateAround _ _ h]
  generalize axis.normalize = n at *
  generalize axis.norm = k at *
  have hcs := sin_sq_add_cos_sq s
  unfold rodrigues
  rw [cos_add, sin_add, cos_zero, sin_zero, ← ha]
  generalize cos s = a at *
  generalize sin s = b at *
  generalize cos t = c at *
  generalize sin t = d at *
  clear ha
  obtain ⟨n1, n2, n3⟩ := n
  obtain ⟨u1, u2, u3⟩ := u
  obtain ⟨v1, v2, v3⟩ := v
  simp only [V3.dot] at hn
  refine ⟨?_, ?_, ?_, ?_, ?_⟩
  · simp only [V3.dot, V3.add, V3.smul, V3.cross]
    linear_combination ((u1*v1+u2*v2+u3*v3) - (n1*u1+n2*u2+n3*u3)*(n1*v1+n2*v2+n3*v3)) * hcs
      + (b^2*(u1*v1+u2*v2+u3*v3) + (1-a)^2*(n1*u1+n2*u2+n3*u3)*(n1*v1+n2*v2+n3*v3)) * hn
  · obtain ⟨w1, hw1⟩ : ∃ w, w = u2 * v3 - u3 * v2 := ⟨_, rfl⟩
    obtain ⟨w2, hw2⟩ : ∃ w, w = u3 * v1 - u1 * v3 := ⟨_, rfl⟩
    obtain ⟨w3, hw3⟩ : ∃ w, w = u1 * v2 - u2 * v1 := ⟨_, rfl⟩
    ext
    · simp only [V3.dot, V3.add, V3.smul, V3.cross]
      rw [← sub_eq_zero]
      have : ∀ X : ℝ, X = n1 * (n1*w1+n2*w2+n3*w3) * (b^2+a^2-1)
        + (a*(1-a)*w1 + b*(1-a)*(n2*w3-n3*w2)) * (n1*n1+n2*n2+n3*n3-1) → X = 0 := by
        intro X hX; rw [hX, hcs, hn]; ring
      apply this; subst hw1 hw2 hw3; ring
    · simp only [V3.dot, V3.add, V3.smul, V3.cross]
      rw [← sub_eq_zero]
      have : ∀ X : ℝ, X = n2 * (n1*w1+n2*w2+n3*w3) * (b^2+a^2-1)
        + (a*(1-a)*w2 + b*(1-a)*(n3*w1-n1*w3)) * (n1*n1+n2*n2+n3*n3-1) → X = 0 := by
        intro X hX; rw [hX, hcs, hn]; ring
      apply this; subst hw1 hw2 hw3; ring
    · simp only [V3.dot, V3.add, V3.smul, V3.cross]
      rw [← sub_eq_zero]
      have : ∀ X : ℝ, X = n3 * (n1*w1+n2*w2+n3*w3) * (b^2+a^2-1)
        + (a*(1-a)*w3 + b*(1-a)*(n1*w2-n2*w1)) * (n1*n1+n2*n2+n3*n3-1) → X = 0 := by
        intro X hX; rw [hX, hcs, hn]; ring
      apply this; subst hw1 hw2 hw3; ring
  · ext <;> simp only [V3.dot, V3.add, V3.smul, V3.cross]
    · linear_combination (1-a)*k*n1 * hn
    · linear_combination (1-a)*k*n2 * hn
    · linear_combination (1-a)*k*n3 * hn
  · ext <;> simp only [V3.dot, V3.add, V3.smul, V3.cross]
    · linear_combination (-d*b*u1 + (1-c)*(1-a)*(n1*u1+n2*u2+n3*u3)*n1) * hn
    · linear_combination (-d*b*u2 + (1-c)*(1-a)*(n1*u1+n2*u2+n3*u3)*n2) * hn
    · linear_combination (-d*b*u3 + (1-c)*(1-a)*(n1*u1+n2*u2+n3*u3)*n3) * hn
  · ext <;> simp only [V3.dot, V3.add, V3.smul, V3.cross] <;> ring

/-- A quarter turn of the x axis about the z axis is the y axis (right-handed). -/
example : (V3.mk 1 0 0).rotateAround ⟨0, 0, 1⟩ (π / 2) = ⟨0, 1, 0⟩ := by
  have h : (V3.mk 0 0 1) ≠ V3.zero := by intro h; simp [V3.zero] at h
  rw [C42_vector3_rotateAround _ _ h]
  ext <;> simp [rodrigues, V3.normalize, V3.smul, V3.dot, V3.add, V3.cross]

/-- **C42 (angle).** -/
theorem C42_vector3_angle (u v : V3) (hu : u ≠ V3.zero) (hv : v ≠ V3.zero) :
    0 ≤ u.angle v ∧ u.angle v ≤ π ∧ u.norm * v.norm * cos (u.angle v) = u.dot v := by
  refine ⟨arccos_nonneg _, arccos_le_pi _, ?_⟩
  have h1 := V3.normalize_dot hu
  have h2 := V3.normalize_dot hv
  have hd : u.normalize.dot v.normalize * u.normalize.dot v.normalize ≤ 1 := by
    have hl : u.normalize.dot v.normalize * u.normalize.dot v.normalize +
        (u.normalize.cross v.normalize).dot (u.normalize.cross v.normalize) =
        u.normalize.dot u.normalize * v.normalize.dot v.normalize := by
      simp only [V3.dot, V3.cross]; ring
    have hc : 0 ≤ (u.normalize.cross v.normalize).dot (u.normalize.cross v.normalize) := by
      rw [← V3.norm_sq]; exact mul_self_nonneg _
    rw [h1, h2] at hl; linarith
  rw [V3.angle, clampOne hd, cos_arccos (by nlinarith) (by nlinarith)]
  conv_rhs => rw [← V3.smul_norm_normalize hu, ← V3.smul_norm_normalize hv]
  simp only [V3.dot, V3.smul]; ring

/-- **C42 (tangent basis).** For every nonzero vector the two returned vectors and its direction form a
right-handed orthonormal frame. -/
theorem C42_vector3_tangentBasis (u : V3) (h : u ≠ V3.zero) (bx by' : V3) (hb : u.buildTangentBasis = (bx, by')) :
    bx.dot bx = 1 ∧ by'.dot by' = 1 ∧ bx.dot by' = 0 ∧ bx.dot u = 0 ∧ by'.dot u = 0 ∧ bx.cross by' = u.normalize := by
  have hn := V3.normalize_dot h
  have hu := V3.smul_norm_normalize h
  unfold V3.buildTangentBasis at hb
  simp only [Prod.mk.injEq] at hb
  obtain ⟨h1, h2⟩ := hb
  generalize hnn : u.normalize = n at *
  generalize u.norm = k at *
  -- the test vector is not parallel to the direction
  have hx : V3.cross (if |V3.dot ⟨1, 0, 0⟩ n| > 0.9 then ⟨0, 1, 0⟩ else ⟨1, 0, 0⟩ : V3) n ≠ V3.zero := by
    have e : V3.dot ⟨1, 0, 0⟩ n = n.x := by simp [V3.dot]
    rw [e]
    simp only [V3.dot] at hn
    split_ifs with hc
    · intro hz
      have e1 := congrArg V3.x hz
      have e2 := congrArg V3.z hz
      simp [V3.cross, V3.zero] at e1 e2
      rw [e2] at hc; norm_num at hc
    · intro hz
      have e1 := congrArg V3.y hz
      have e2 := congrArg V3.z hz
      simp [V3.cross, V3.zero] at e1 e2
      rw [e1, e2] at hn
      have hc' := abs_le.1 (not_lt.1 hc)
      nlinarith [hc'.1, hc'.2]
  generalize ht : (if |V3.dot ⟨1, 0, 0⟩ n| > 0.9 then ⟨0, 1, 0⟩ else ⟨1, 0, 0⟩ : V3) = tv at *
  have b1 : bx.dot bx = 1 := by rw [← h1]; exact V3.normalize_dot hx
  have b2 : bx.dot n = 0 := by
    have e := V3.smul_norm_normalize hx
    have hp := V3.norm_pos hx
    rw [h1] at e
    have : (V3.cross tv n).dot n = 0 := by simp only [V3.dot, V3.cross]; ring
    rw [← e] at this
    have h3 : (V3.norm (V3.cross tv n)) * bx.dot n = 0 := by
      rw [← this]; simp only [V3.dot, V3.smul]; ring
    exact (mul_eq_zero.1 h3).resolve_left hp.ne'
  -- the second cross product already has length one
  have c1 : (n.cross bx).dot (n.cross bx) = 1 := by
    have : (n.cross bx).dot (n.cross bx) = n.dot n * bx.dot bx - bx.dot n * bx.dot n := by
      simp only [V3.dot, V3.cross]; ring
    rw [this, hn, b1, b2]; ring
  have c2 : by' = n.cross bx := by
    rw [← h2, h1]
    have hnm : V3.norm (n.cross bx) = 1 := by
      have := V3.norm_sq (n.cross bx)
      rw [c1] at this
      have h0 := V3.norm_nonneg (n.cross bx)
      nlinarith
    have e : (n.cross bx).normalize = (n.cross bx).smul (1 / V3.norm (n.cross bx)) := rfl
    rw [e, hnm]; ext <;> simp [V3.smul]
  subst c2
  refine ⟨b1, c1, by simp only [V3.dot, V3.cross]; ring, ?_, ?_, ?_⟩
  · rw [← hu]
    have : bx.dot (n.smul k) = k * bx.dot n := by simp only [V3.dot, V3.smul]; ring
    rw [this, b2, mul_zero]
  · rw [← hu]; simp only [V3.dot, V3.cross, V3.smul]; ring
  · simp only [V3.dot] at b1 b2
    ext <;> simp only [V3.cross]
    · linear_combination n.x * b1 - bx.x * b2
    · linear_combination n.y * b1 - bx.y * b2
    · linear_combination n.z * b1 - bx.z * b2

/-- **C42 (angle in a plane).** With `u` not parallel to the normal, turning the direction of the projection of `u`
about the normal by `angleInPlane u v normal` gives the direction of the projection of `v`. -/
theorem C42_vector3_angleInPlane (u v normal : V3) (hn : normal ≠ V3.zero)
    (hu : u.removeComponent normal.normalize ≠ V3.zero) :
    ((u.removeComponent normal.normalize).normalize.rotateAround normal (u.angleInPlane v normal)).smul
      (v.removeComponent normal.normalize).norm = v.removeComponent normal.normalize := by
  have hN := V3.normalize_dot hn
  have hNn := V3.smul_norm_normalize hn
  have hp := V3.norm_pos hn
  rw [C42_vector3_rotateAround _ _ hn]
  have e1 : V3.sub u (V3.lmul (V3.dot u normal.normalize) normal.normalize) = u.removeComponent normal.normalize := by
    unfold V3.removeComponent; ext <;> simp only [V3.sub, V3.lmul, V3.smul, V3.dot] <;> ring
  obtain ⟨p, hpd⟩ : ∃ p, p = (u.removeComponent normal.normalize).normalize := ⟨_, rfl⟩
  have hpp : p.dot p = 1 := by rw [hpd]; exact V3.normalize_dot hu
  have hpn : p.dot normal.normalize = 0 := by
    have h0 := (C42_vector3_removeComponent u _ hN).1
    have h1 := V3.smul_norm_normalize hu
    have h2 := V3.norm_pos hu
    rw [← hpd] at h1
    rw [← h1] at h0
    have : (u.removeComponent normal.normalize).norm * p.dot normal.normalize = 0 := by
      rw [← h0]; simp only [V3.dot, V3.smul]; ring
    exact (mul_eq_zero.1 this).resolve_left h2.ne'
  obtain ⟨q, hq⟩ : ∃ q, q = (normal.cross p).normalize := ⟨_, rfl⟩
  have hang : u.angleInPlane v normal = Complex.arg ⟨v.dot p, v.dot q⟩ := by
    unfold V3.angleInPlane; simp only; rw [e1, ← hpd, ← hq]
  rw [hang, ← hpd]
  generalize hNdef : normal.normalize = n at *
  generalize hk : normal.norm = k at *
  have hqn : q = n.cross p := by
    have hc : (n.cross p).dot (n.cross p) = 1 := by
      have : (n.cross p).dot (n.cross p) = n.dot n * p.dot p - p.dot n * p.dot n := by
        simp only [V3.dot, V3.cross]; ring
      rw [this, hN, hpp, hpn]; ring
    have hd : normal.cross p = (n.cross p).smul k := by
      rw [← hNn]; ext <;> simp only [V3.cross, V3.smul] <;> ring
    have hnm : V3.norm (normal.cross p) = k := by
      have h1 := V3.norm_sq (normal.cross p)
      have h2 : (normal.cross p).dot (normal.cross p) = k * k := by
        rw [hd]
        have : ((n.cross p).smul k).dot ((n.cross p).smul k) = k * k * (n.cross p).dot (n.cross p) := by
          simp only [V3.dot, V3.smul]; ring
        rw [this, hc, mul_one]
      rw [h2] at h1
      have h3 := V3.norm_nonneg (normal.cross p)
      nlinarith [mul_self_eq_mul_self_iff.1 h1]
    rw [hq]
    have e : (normal.cross p).normalize = (normal.cross p).smul (1 / V3.norm (normal.cross p)) := rfl
    rw [e, hnm, hd]
    ext <;> simp only [V3.smul] <;> field_simp
  -- the projection of v in the frame (p, q)
  have hv : v.removeComponent n = (p.smul (v.dot p)).add (q.smul (v.dot q)) := by
    have three : ∀ w : V3, w.dot n = 0 → w = (p.smul (w.dot p)).add (q.smul (w.dot q)) := by
      intro w hw
      rw [hqn]
      have kx : w.x * (n.dot n * p.dot p - p.dot n * p.dot n) = (n.cross p).x * w.dot (n.cross p)
          - w.dot n * (p.x * p.dot n - n.x * p.dot p) + w.dot p * (p.x * n.dot n - n.x * p.dot n) := by
        simp only [V3.dot, V3.cross]; ring
      have ky : w.y * (n.dot n * p.dot p - p.dot n * p.dot n) = (n.cross p).y * w.dot (n.cross p)
          - w.dot n * (p.y * p.dot n - n.y * p.dot p) + w.dot p * (p.y * n.dot n - n.y * p.dot n) := by
        simp only [V3.dot, V3.cross]; ring
      have kz : w.z * (n.dot n * p.dot p - p.dot n * p.dot n) = (n.cross p).z * w.dot (n.cross p)
          - w.dot n * (p.z * p.dot n - n.z * p.dot p) + w.dot p * (p.z * n.dot n - n.z * p.dot n) := by
        simp only [V3.dot, V3.cross]; ring
      rw [hN, hpp, hpn, hw] at kx ky kz
      ext <;> simp only [V3.add, V3.smul]
      · linear_combination kx
      · linear_combination ky
      · linear_combination kz
    have h0 : (v.removeComponent n).dot n = 0 := by
      have := (C42_vector3_removeComponent v n hN).1
      rw [← this]; simp only [V3.dot]; ring
    have h1 := three _ h0
    have h2 : (v.removeComponent n).dot p = v.dot p := by
      have : (v.removeComponent n).dot p = v.dot p - n.dot v * p.dot n := by
        simp only [V3.removeComponent, V3.dot, V3.sub, V3.smul]; ring
      rw [this, hpn]; ring
    have h3 : (v.removeComponent n).dot q = v.dot q := by
      rw [hqn]; simp only [V3.removeComponent, V3.dot, V3.sub, V3.smul, V3.cross]; ring
    rw [h2, h3] at h1
    exact h1
  obtain ⟨z, hz⟩ : ∃ z : ℂ, z = ⟨v.dot p, v.dot q⟩ := ⟨_, rfl⟩
  have hre : z.re = v.dot p := by rw [hz]
  have him : z.im = v.dot q := by rw [hz]
  have hnz : (v.removeComponent n).norm = ‖z‖ := by
    have h1 : (v.removeComponent n).dot (v.removeComponent n) = z.re * z.re + z.im * z.im := by
      have hqq : q.dot q = 1 := by
        have : q.dot q = n.dot n * p.dot p - p.dot n * p.dot n := by
          rw [hqn]; simp only [V3.dot, V3.cross]; ring
        rw [this, hN, hpp, hpn]; ring
      have hpq : p.dot q = 0 := by rw [hqn]; simp only [V3.dot, V3.cross]; ring
      rw [hv, hre, him]
      have : ((p.smul (v.dot p)).add (q.smul (v.dot q))).dot ((p.smul (v.dot p)).add (q.smul (v.dot q))) =
          v.dot p * v.dot p * p.dot p + 2 * (v.dot p * v.dot q) * p.dot q + v.dot q * v.dot q * q.dot q := by
        simp only [V3.dot, V3.add, V3.smul]; ring
      rw [this, hpp, hpq, hqq]; ring
    rw [Complex.norm_def, Complex.normSq_apply, ← h1]; rfl
  have hcos : ‖z‖ * cos (Complex.arg z) = z.re := Complex.norm_mul_cos_arg z
  have hsin : ‖z‖ * sin (Complex.arg z) = z.im := Complex.norm_mul_sin_arg z
  rw [← hz, hnz, hv, ← hre, ← him, ← hcos, ← hsin]
  unfold rodrigues
  have hnp : n.dot p = 0 := by rw [← hpn]; simp only [V3.dot]; ring
  rw [hnp, ← hqn]
  ext <;> simp only [V3.add, V3.smul] <;> ring

example : ∃ u normal : V3, normal ≠ V3.zero ∧ u.removeComponent normal.normalize ≠ V3.zero := by
  refine ⟨⟨1, 0, 0⟩, ⟨0, 0, 2⟩, by intro h; simp [V3.zero] at h, ?_⟩
  intro h
  have := congrArg V3.x h
  simp [V3.removeComponent, V3.sub, V3.smul, V3.normalize, V3.dot, V3.zero] at this

/-! ## Quaternions -/

/-- The quaternion in Mathlib's sense. -/
def Quat.toH (p : Quat) : Quaternion ℝ := ⟨p.s, p.v.x, p.v.y, p.v.z⟩

@[simp] theorem Quat.toH_re (p : Quat) : p.toH.re = p.s := rfl
@[simp] theorem Quat.toH_imI (p : Quat) : p.toH.imI = p.v.x := rfl
@[simp] theorem Quat.toH_imJ (p : Quat) : p.toH.imJ = p.v.y := rfl
@[simp] theorem Quat.toH_imK (p : Quat) : p.toH.imK = p.v.z := rfl

theorem Quat.toH_inj {p q : Quat} (h : p.toH = q.toH) : p = q := by
  have h1 := congrArg (fun h : Quaternion ℝ => h.re) h
  have h2 := congrArg (fun h : Quaternion ℝ => h.imI) h
  have h3 := congrArg (fun h : Quaternion ℝ => h.imJ) h
  have h4 := congrArg (fun h : Quaternion ℝ => h.imK) h
  exact Quat.ext h1 (V3.ext h2 h3 h4)

theorem Quat.norm_sq (p : Quat) : p.norm * p.norm = p.norm2 := by
  unfold Quat.norm Quat.norm2 V3.dot
  rw [Real.mul_self_sqrt]
  · ring
  · nlinarith [mul_self_nonneg p.s, mul_self_nonneg p.v.x, mul_self_nonneg p.v.y, mul_self_nonneg p.v.z]

/-- **C42 (quaternions).** The operations are those of Hamilton's quaternions. -/
theorem C42_quaternion_hamilton (p q : Quat) (c : ℝ) :
    (p.add q).toH = p.toH + q.toH ∧ (p.sub q).toH = p.toH - q.toH ∧ p.neg.toH = -p.toH ∧
    (p.mul q).toH = p.toH * q.toH ∧ (p.smul c).toH = c • p.toH ∧ p.bar.toH = star p.toH ∧
    p.norm2 = Quaternion.normSq p.toH ∧ p.norm = ‖p.toH‖ ∧ (p.toH ≠ 0 → p.inv.toH = p.toH⁻¹) := by
  have hmul : ∀ p q : Quat, (p.mul q).toH = p.toH * q.toH := by
    intro p q
    ext <;> simp [Quat.mul, V3.add, V3.lmul, V3.cross, V3.dot] <;> ring
  have hn2 : p.norm2 = Quaternion.normSq p.toH := by
    simp [Quaternion.normSq_def', Quat.norm2, V3.dot]; ring
  refine ⟨?_, ?_, ?_, hmul p q, ?_, ?_, hn2, ?_, ?_⟩
  · ext <;> simp [Quat.add, V3.add]
  · ext <;> simp [Quat.sub, V3.sub]
  · ext <;> simp [Quat.neg, V3.neg]
  · ext <;> simp [Quat.smul, V3.smul, mul_comm]
  · ext <;> simp [Quat.bar, V3.neg]
  · have h1 : p.norm * p.norm = ‖p.toH‖ * ‖p.toH‖ := by
      rw [Quat.norm_sq, hn2, Quaternion.normSq_eq_norm_mul_self]
    exact (mul_self_inj (Real.sqrt_nonneg _) (norm_nonneg _)).1 h1
  · intro h
    apply eq_inv_of_mul_eq_one_left
    have hne : p.norm2 ≠ 0 := by rw [hn2]; exact Quaternion.normSq_ne_zero.2 h
    rw [← hmul]
    have : p.inv.mul p = ⟨1, V3.zero⟩ := by
      unfold Quat.norm2 V3.dot at hne
      apply Quat.ext
      · simp only [Quat.inv, Quat.mul, Quat.sdiv, Quat.bar, V3.sdiv, V3.neg, V3.dot, Quat.norm2]
        linear_combination one_div_mul_cancel hne
      · ext <;> simp only [Quat.inv, Quat.mul, Quat.sdiv, Quat.bar, V3.sdiv, V3.neg, V3.dot, Quat.norm2, V3.add, V3.lmul,
          V3.cross, V3.zero] <;> field_simp <;> ring
    rw [this]; ext <;> simp [V3.zero] <;> rfl

/-- **C42 (quaternion laws).** -/
theorem C42_quaternion_laws (p q r : Quat) :
    (p.mul q).mul r = p.mul (q.mul r) ∧ (p.mul q).norm2 = p.norm2 * q.norm2 ∧ (p.mul q).norm = p.norm * q.norm ∧
    (p.mul q).bar = q.bar.mul p.bar ∧
    (p.norm2 ≠ 0 → p.mul p.inv = ⟨1, V3.zero⟩ ∧ p.inv.mul p = ⟨1, V3.zero⟩ ∧ p.unit.norm = 1) := by
  have H := fun p q => C42_quaternion_hamilton p q 0
  refine ⟨?_, ?_, ?_, ?_, ?_⟩
  · apply Quat.toH_inj; simp only [fun p q => (H p q).2.2.2.1, mul_assoc]
  · simp only [fun p => (H p p).2.2.2.2.2.2.1, fun p q => (H p q).2.2.2.1, map_mul]
  · simp only [fun p => (H p p).2.2.2.2.2.2.2.1, fun p q => (H p q).2.2.2.1, norm_mul]
  · apply Quat.toH_inj
    simp only [fun p => (H p p).2.2.2.2.2.1, fun p q => (H p q).2.2.2.1, star_mul]
  · intro hp
    have h0 : p.toH ≠ 0 := by rw [(H p p).2.2.2.2.2.2.1] at hp; exact Quaternion.normSq_ne_zero.1 hp
    have hi := (H p p).2.2.2.2.2.2.2.2 h0
    have e1 : (⟨1, V3.zero⟩ : Quat).toH = 1 := by ext <;> simp [V3.zero] <;> rfl
    refine ⟨?_, ?_, ?_⟩
    · apply Quat.toH_inj; rw [(H _ _).2.2.2.1, hi, e1, mul_inv_cancel₀ h0]
    · apply Quat.toH_inj; rw [(H _ _).2.2.2.1, hi, e1, inv_mul_cancel₀ h0]
    · have hn : p.norm ≠ 0 := by rw [(H p p).2.2.2.2.2.2.2.1]; exact norm_ne_zero_iff.2 h0
      have h1 := Quat.norm_sq p.unit
      have h2 : p.unit.norm2 = 1 := by
        have h3 := Quat.norm_sq p
        have : p.unit.norm2 = p.norm2 / (p.norm * p.norm) := by
          simp only [Quat.unit, Quat.sdiv, Quat.norm2, V3.dot, V3.sdiv]; field_simp
        rw [this, h3, div_self hp]
      rw [h2] at h1
      have h4 : 0 ≤ p.unit.norm := Real.sqrt_nonneg _
      nlinarith

/-- **C42 (matrix form).** `toMatrix` is left multiplication, hence multiplicative. -/
theorem C42_quaternion_matrix (p q : Quat) :
    (p.toMatrix).mulVec q.comp = (p.mul q).comp ∧ (p.mul q).toMatrix = p.toMatrix * q.toMatrix := by
  constructor
  · funext i
    fin_cases i <;> simp [Quat.toMatrix, Quat.comp, Quat.mul, Matrix.mulVec, dotProduct, Fin.sum_univ_four,
      V3.dot, V3.add, V3.lmul, V3.cross] <;> ring
  · ext i j
    fin_cases i <;> fin_cases j <;> simp [Quat.toMatrix, Quat.mul, Matrix.mul_apply, Fin.sum_univ_four,
      V3.dot, V3.add, V3.lmul, V3.cross] <;> ring

/-- **C42 (slerp).** Between two nonzero quaternions that are neither parallel nor antiparallel, `slerp` starts at the
first, ends at the second, and its length is the linear interpolation of the lengths. -/
theorem C42_quaternion_slerp (q0 q1 : Quat) (h0 : q0.norm2 ≠ 0) (h1 : q1.norm2 ≠ 0)
    (hpar : ∀ c : ℝ, q1 ≠ q0.smul c) (t : ℝ) :
    q0.slerp q1 0 = q0 ∧ q0.slerp q1 1 = q1 ∧ (q0.slerp q1 t).norm2 = ((1 - t) * q0.norm + t * q1.norm) ^ 2 := by
  have n0 : q0.norm ≠ 0 := by intro h; apply h0; rw [← Quat.norm_sq, h, zero_mul]
  have n1 : q1.norm ≠ 0 := by intro h; apply h1; rw [← Quat.norm_sq, h, zero_mul]
  unfold Quat.slerp
  simp only
  have s0 := Quat.norm_sq q0
  have s1 := Quat.norm_sq q1
  obtain ⟨p0, hp0⟩ : ∃ p, p = q0.sdiv q0.norm := ⟨_, rfl⟩
  obtain ⟨p1, hp1⟩ : ∃ p, p = q1.sdiv q1.norm := ⟨_, rfl⟩
  rw [← hp0, ← hp1]
  have e0 : p0.smul q0.norm = q0 := by
    rw [hp0]; apply Quat.ext
    · simp only [Quat.smul, Quat.sdiv]; field_simp
    · ext <;> simp only [Quat.smul, Quat.sdiv, V3.smul, V3.sdiv] <;> field_simp
  have e1 : p1.smul q1.norm = q1 := by
    rw [hp1]; apply Quat.ext
    · simp only [Quat.smul, Quat.sdiv]; field_simp
    · ext <;> simp only [Quat.smul, Quat.sdiv, V3.smul, V3.sdiv] <;> field_simp
  have u0 : p0.norm2 = 1 := by
    have : q0.norm2 = q0.norm * q0.norm * p0.norm2 := by
      conv_lhs => rw [← e0]
      simp only [Quat.norm2, Quat.smul, V3.dot, V3.smul]; ring
    rw [← s0] at this
    have hm : q0.norm * q0.norm ≠ 0 := mul_ne_zero n0 n0
    exact (mul_left_cancel₀ hm (by rw [← this, mul_one])) 
  have u1 : p1.norm2 = 1 := by
    have : q1.norm2 = q1.norm * q1.norm * p1.norm2 := by
      conv_lhs => rw [← e1]
      simp only [Quat.norm2, Quat.smul, V3.dot, V3.smul]; ring
    rw [← s1] at this
    have hm : q1.norm * q1.norm ≠ 0 := mul_ne_zero n1 n1
    exact (mul_left_cancel₀ hm (by rw [← this, mul_one]))
  obtain ⟨d, hd⟩ : ∃ d, d = (p0.bar.mul p1).s := ⟨_, rfl⟩
  rw [← hd]
  have hdd : d = p0.s * p1.s + p0.v.dot p1.v := by
    rw [hd]; simp only [Quat.mul, Quat.bar, V3.dot, V3.neg]; ring
  -- the squared distance of p1 from d * p0
  have hres : (p1.sub (p0.smul d)).norm2 = 1 - d * d := by
    have : (p1.sub (p0.smul d)).norm2 = p1.norm2 - 2 * d * (p0.s * p1.s + p0.v.dot p1.v) + d * d * p0.norm2 := by
      simp only [Quat.norm2, Quat.sub, Quat.smul, V3.dot, V3.sub, V3.smul]; ring
    rw [this, u0, u1, ← hdd]; ring
  have hlt : 0 < 1 - d * d := by
    rw [← hres]
    rcases lt_or_eq_of_le (show 0 ≤ (p1.sub (p0.smul d)).norm2 by rw [← Quat.norm_sq]; exact mul_self_nonneg _) with h | h
    · exact h
    · exfalso
      rw [(C42_quaternion_hamilton _ (p1.sub (p0.smul d)) 0).2.2.2.2.2.2.1] at h
      have hz := Quaternion.normSq_eq_zero.1 h.symm
      apply hpar (d / q0.norm * q1.norm)
      have hp : p1 = p0.smul d := by
        apply Quat.toH_inj
        rw [(C42_quaternion_hamilton p1 (p0.smul d) 0).2.1] at hz
        exact sub_eq_zero.1 hz
      conv_lhs => rw [← e1, hp, hp0]
      apply Quat.ext
      · simp only [Quat.smul, Quat.sdiv]; field_simp
      · ext <;> simp only [Quat.smul, Quat.sdiv, V3.smul, V3.sdiv] <;> field_simp
  have hcos : cos (arccos d) = d := cos_arccos (by nlinarith) (by nlinarith)
  have hss := sin_sq_add_cos_sq (arccos d)
  rw [hcos] at hss
  have hsin : sin (arccos d) ≠ 0 := by intro h; rw [h] at hss; nlinarith
  refine ⟨?_, ?_, ?_⟩
  · simp only [sub_zero, one_mul, zero_mul, sin_zero, add_zero]
    conv_rhs => rw [← e0]
    apply Quat.ext
    · simp only [Quat.smul, Quat.sdiv, Quat.add]; field_simp; ring
    · ext <;> simp only [Quat.smul, Quat.sdiv, Quat.add, V3.smul, V3.sdiv, V3.add] <;> field_simp <;> ring
  · simp only [sub_self, one_mul, zero_mul, sin_zero, zero_add]
    conv_rhs => rw [← e1]
    apply Quat.ext
    · simp only [Quat.smul, Quat.sdiv, Quat.add]; field_simp; ring
    · ext <;> simp only [Quat.smul, Quat.sdiv, Quat.add, V3.smul, V3.sdiv, V3.add] <;> field_simp <;> ring
  · generalize hm : (1 - t) * q0.norm + t * q1.norm = m
    generalize hth : arccos d = th at *
    -- sin²((1-t)θ) + sin²(tθ) + 2 sin((1-t)θ) sin(tθ) cos θ = sin² θ
    have hA := sin_sq_add_cos_sq ((1 - t) * th)
    have hB := sin_sq_add_cos_sq (t * th)
    have hsum : sin th = sin ((1 - t) * th) * cos (t * th) + cos ((1 - t) * th) * sin (t * th) := by
      rw [← sin_add]; congr 1; ring
    have hcsum : d = cos ((1 - t) * th) * cos (t * th) - sin ((1 - t) * th) * sin (t * th) := by
      rw [← hcos, ← cos_add]; congr 1; ring
    generalize sin ((1 - t) * th) = a at *
    generalize sin (t * th) = b at *
    generalize cos ((1 - t) * th) = a' at *
    generalize cos (t * th) = b' at *
    have key : a * a + b * b + 2 * a * b * d = sin th * sin th := by
      rw [hsum, hcsum]
      linear_combination (-a * a) * hB - b * b * hA
    have hn : (Quat.smul (Quat.sdiv (Quat.add (p0.smul a) (p1.smul b)) (sin th)) m).norm2 =
        m ^ 2 * ((a * a * p0.norm2 + b * b * p1.norm2 + 2 * a * b * (p0.s * p1.s + p0.v.dot p1.v)) / (sin th * sin th)) := by
      simp only [Quat.norm2, Quat.smul, Quat.sdiv, Quat.add, V3.dot, V3.smul, V3.sdiv, V3.add]
      field_simp; ring
    rw [hn, u0, u1, ← hdd, mul_one, mul_one, key, div_self (mul_ne_zero hsin hsin), mul_one]

example : ∃ q0 q1 : Quat, q0.norm2 ≠ 0 ∧ q1.norm2 ≠ 0 ∧ ∀ c : ℝ, q1 ≠ q0.smul c := by
  refine ⟨⟨1, V3.zero⟩, ⟨0, ⟨2, 0, 0⟩⟩, by simp [Quat.norm2, V3.dot, V3.zero], by simp [Quat.norm2, V3.dot], ?_⟩
  intro c h
  have := congrArg (fun q : Quat => q.v.x) h
  simp [Quat.smul, V3.smul, V3.zero] at this

end GC
