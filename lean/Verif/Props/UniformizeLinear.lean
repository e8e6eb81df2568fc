import Verif.Props.Uniformize
import Mathlib.Analysis.SpecialFunctions.Trigonometric.InverseDeriv
import Mathlib.Analysis.SpecialFunctions.ExpDeriv

/-! # C94: the Laplacian is the derivative of the curvatures -/

namespace GC
open Classical Finset

/-- The derivative of an angle of a triangle whose lengths are scaled by factors at the vertices `i`, `j`, `k`; the side `a` joins `i` to `j`, `o` joins `j` to `k`, `b` joins `k` to `i`. -/
theorem cang_deriv {a o b : ℝ} (h : TriOK a o b) (x y z : ℝ) :
    HasDerivAt (fun s : ℝ => cang (a * Real.exp (s * ((x + y) / 2))) (o * Real.exp (s * ((y + z) / 2))) (b * Real.exp (s * ((z + x) / 2))))
      (-(cotw a o b * (x - y) + cotw b a o * (x - z))) 0 := by
  have pa := h.pa; have pb := h.pc; have po := h.pb
  have h1 : (a * a + b * b - o * o) / (2 * a * b) < 1 := by
    rw [div_lt_one (by positivity)]
    nlinarith [h.ha, h.hc, mul_pos (sub_pos.2 h.ha) (sub_pos.2 h.hc)]
  have h2 : -1 < (a * a + b * b - o * o) / (2 * a * b) := by
    rw [lt_div_iff₀ (by positivity)]
    nlinarith [h.hb, mul_pos (sub_pos.2 h.hb) (by linarith : 0 < a + b + o)]
  set q : ℝ → ℝ := fun s => (a / b * Real.exp (s * ((y - z) / 2)) + b / a * Real.exp (s * ((z - y) / 2)) - o * o / (a * b) * Real.exp (s * ((y + z) / 2 - x))) / 2 with hq
  have q0 : q 0 = (a * a + b * b - o * o) / (2 * a * b) := by
    simp only [hq, zero_mul, Real.exp_zero, mul_one]
    field_simp
  have ex : ∀ c : ℝ, HasDerivAt (fun s : ℝ => Real.exp (s * c)) c 0 := fun c => by
    have := ((hasDerivAt_id (0 : ℝ)).mul_const c).exp
    simpa using this
  have dq : HasDerivAt q ((a / b * ((y - z) / 2) + b / a * ((z - y) / 2) - o * o / (a * b) * ((y + z) / 2 - x)) / 2) 0 :=
    ((((ex _).const_mul (a / b)).add ((ex _).const_mul (b / a))).sub ((ex _).const_mul (o * o / (a * b)))).div_const 2
  have sq : Real.sqrt (1 - q 0 ^ 2) = 2 * triangleArea a o b / (a * b) := by
    rw [← (cang_spec h).2.2.2, ← Real.sin_arccos, q0]
    congr 1
    unfold cang clampR
    rw [if_neg (by linarith), if_neg (by linarith)]
  have da := (Real.hasDerivAt_arccos (x := q 0) (by rw [q0]; exact h2.ne') (by rw [q0]; exact h1.ne)).comp 0 dq
  rw [sq] at da
  have e1 : triangleArea b a o = triangleArea a o b := (triangleArea_rot b a o)
  have hA := h.area_pos
  have val : -(cotw a o b * (x - y) + cotw b a o * (x - z)) = -(1 / (2 * triangleArea a o b / (a * b))) * ((a / b * ((y - z) / 2) + b / a * ((z - y) / 2) - o * o / (a * b) * ((y + z) / 2 - x)) / 2) := by
    unfold cotw
    rw [e1]
    field_simp
    ring
  rw [val]
  refine da.congr_of_eventuallyEq ?_
  have c := dq.continuousAt
  filter_upwards [c.eventually_lt continuousAt_const (by rw [q0]; exact h1 : q 0 < 1), continuousAt_const.eventually_lt c (by rw [q0]; exact h2 : -1 < q 0)] with s s1 s2
  have es : (a * Real.exp (s * ((x + y) / 2)) * (a * Real.exp (s * ((x + y) / 2))) + b * Real.exp (s * ((z + x) / 2)) * (b * Real.exp (s * ((z + x) / 2))) -
      o * Real.exp (s * ((y + z) / 2)) * (o * Real.exp (s * ((y + z) / 2)))) / (2 * (a * Real.exp (s * ((x + y) / 2))) * (b * Real.exp (s * ((z + x) / 2)))) = q s := by
    have r1 : Real.exp (s * ((x + y) / 2)) = Real.exp (s * x / 2) * Real.exp (s * y / 2) := by rw [← Real.exp_add]; congr 1; ring
    have r2 : Real.exp (s * ((z + x) / 2)) = Real.exp (s * z / 2) * Real.exp (s * x / 2) := by rw [← Real.exp_add]; congr 1; ring
    have r3 : Real.exp (s * ((y + z) / 2)) = Real.exp (s * y / 2) * Real.exp (s * z / 2) := by rw [← Real.exp_add]; congr 1; ring
    have r4 : Real.exp (s * ((y - z) / 2)) = Real.exp (s * y / 2) / Real.exp (s * z / 2) := by rw [← Real.exp_sub]; congr 1; ring
    have r5 : Real.exp (s * ((z - y) / 2)) = Real.exp (s * z / 2) / Real.exp (s * y / 2) := by rw [← Real.exp_sub]; congr 1; ring
    have r6 : Real.exp (s * ((y + z) / 2 - x)) = Real.exp (s * y / 2) * Real.exp (s * z / 2) / (Real.exp (s * x / 2) * Real.exp (s * x / 2)) := by
      rw [← Real.exp_add, ← Real.exp_add, ← Real.exp_sub]; congr 1; ring
    simp only [hq]
    rw [r1, r2, r3, r4, r5, r6]
    have := Real.exp_pos (s * x / 2)
    have := Real.exp_pos (s * y / 2)
    have := Real.exp_pos (s * z / 2)
    field_simp
  show cang _ _ _ = Real.arccos (q s)
  unfold cang
  rw [es]
  unfold clampR
  rw [if_neg (by linarith), if_neg (by linarith)]

namespace Mesh
variable {m : Mesh} {len : ℕ → ℝ}

/-- **C94, linearisation.** The cotan Laplacian is the derivative of the curvatures at the interior vertices when the lengths are scaled by factors at the vertices: a pass of `uniformizeDisk` solves the linearised
equation `K = 0`, and takes half that step. -/
theorem C94_linear (m : Mesh) (len : ℕ → ℝ) (hv : m.Valid) (ht : m.TriFaces) (hm : m.Metric len) (u : ℕ → ℝ) (lens : ℝ → ℕ → ℝ) (ind : ℕ → ℕ) (hi : m.getVertexIndices = .ok ind)
    (hs : ∀ s h, m.heLive h → lens s (h / 2) = len (h / 2) * Real.exp (s * ((u (ind (m.heVertex h)) + u (ind (m.heVertex (m.heNext h)))) / 2))) :
    ∃ (L : ℕ → ℕ → ℝ) (K : ℝ → ℕ → ℝ), m.cotanLaplacian len = .ok L ∧ (∀ s, m.vertexGaussianCurvatures (lens s) = .ok (K s)) ∧
      ∀ v, m.vLive v → ¬ m.OnBoundary v → HasDerivAt (fun s => K s v) (∑ j ∈ range m.nV, L (ind v) j * u j) 0 := by
  obtain ⟨vs, hs', is, es, fs, R⟩ := hv.ranges
  obtain ⟨L, l1, l2⟩ := cotanLaplacian_form (len := len) hv R
  rw [R.iv.1] at hi
  injection hi with hi
  subst hi
  choose ca K c1 k1 k2 using fun s => C64_curvature m (lens s) hv
  refine ⟨L, K, l1, k1, fun v vl nb => ?_⟩
  have nlt := R.iv.2.1 v vl
  have cw : ∀ h ∈ m.ints, m.halfedgeCotanWeight len h = cotw (len (heEdge h)) (len (heEdge (m.heNext h))) (len (heEdge (m.heNext (m.heNext h)))) := by
    intro h hh
    have hx : m.heIsInterior h := (mem_ints.1 hh).2
    unfold halfedgeCotanWeight cotw
    rw [if_pos hx, faceArea_he hv ht hh]
  have back : ∀ h ∈ m.ints, m.heNext (m.heNext (m.heNext h)) = h := fun h hh => ht h (mem_ints.1 hh).1 (mem_ints.1 hh).2
  -- the curvature as a sum over the corners
  have eK : (fun s => K s v) = fun s => 2 * Real.pi - ∑ h ∈ m.ints with m.heVertex h = v, m.cornerAngle (lens s) h := by
    funext s
    rw [(k2 s v vl).1, if_neg nb]
    obtain ⟨ca', c1', c2⟩ := cornerAngles_ok (len := lens s) R
    rw [c1 s] at c1'
    injection c1' with c1'
    congr 1
    refine sum_congr ?_ (fun h hh => ?_)
    · ext h
      simp only [mem_filter, mem_ints, mem_range]
      exact ⟨fun q => ⟨⟨q.2.1, q.2.2.1⟩, q.2.2.2⟩, fun q => ⟨q.1.1.1, q.1.1, q.1.2, q.2⟩⟩
    · rw [c1', c2, if_pos (mem_filter.1 hh).1]
  have dK := (HasDerivAt.fun_sum (u := ({h ∈ m.ints | m.heVertex h = v} : Finset ℕ)) (A := fun h s => m.cornerAngle (lens s) h) (x := (0 : ℝ))
    (A' := fun h => m.halfedgeCotanWeight len h * m.diff (number vs) u h - m.halfedgeCotanWeight len (m.heNext (m.heNext h)) * m.diff (number vs) u (m.heNext (m.heNext h))) (fun h hh => by
      have hA := (mem_filter.1 hh).1
      have hB := int_next hv hA
      have hC := int_next hv hB
      have lA := (mem_ints.1 hA).1
      have tri := hm h lA (mem_ints.1 hA).2
      have d := cang_deriv tri (u (number vs (m.heVertex h))) (u (number vs (m.heVertex (m.heNext h)))) (u (number vs (m.heVertex (m.heNext (m.heNext h)))))
      rw [cw h hA, cw _ hC, back h hA]
      have e : ∀ s, m.cornerAngle (lens s) h = cang (lens s (h / 2)) (lens s (m.heNext h / 2)) (lens s (m.heNext (m.heNext h) / 2)) := fun s => rfl
      simp only [e]
      simp only [hs _ _ lA, hs _ _ (mem_ints.1 hB).1, hs _ _ (mem_ints.1 hC).1, back h hA]
      refine d.congr_deriv ?_
      unfold diff
      rw [back h hA]
      simp only [heEdge]
      ring)).const_sub (2 * Real.pi)
  rw [eK]
  refine dK.congr_deriv ?_
  -- the row of the Laplacian
  have row : ∑ j ∈ range m.nV, L (number vs v) j * u j = ∑ h ∈ m.ints, m.halfedgeCotanWeight len h * (m.diff (number vs) (fun i => if i = number vs v then 1 else 0) h * m.diff (number vs) u h) := by
    rw [← l2, sum_eq_single (f := fun i => ∑ j ∈ range m.nV, (if i = number vs v then (1 : ℝ) else 0) * L i j * u j) (number vs v)]
    · simp only [if_true, one_mul]
    · intro i _ hi'
      simp only [if_neg hi', zero_mul, sum_const_zero]
    · intro c
      exact absurd (mem_range.2 nlt) c
  have ni : ∀ h ∈ m.ints, (number vs (m.heVertex h) = number vs v ↔ m.heVertex h = v) := fun h hh =>
    ⟨fun e => R.iv.2.inj (hv.vertex_live _ (mem_ints.1 hh).1) vl e, fun e => by rw [e]⟩
  have shift : ∑ h ∈ m.ints with m.heVertex h = v, m.halfedgeCotanWeight len (m.heNext (m.heNext h)) * m.diff (number vs) u (m.heNext (m.heNext h)) =
      ∑ h ∈ m.ints with m.heVertex (m.heNext h) = v, m.halfedgeCotanWeight len h * m.diff (number vs) u h := by
    refine sum_bij (fun h _ => m.heNext (m.heNext h)) (fun h hh => ?_) (fun h hh k hk e => ?_) (fun h hh => ?_) (fun _ _ => rfl)
    · obtain ⟨a, b⟩ := mem_filter.1 hh
      exact mem_filter.2 ⟨int_next hv (int_next hv a), by rw [back h a, b]⟩
    · rw [← back h (mem_filter.1 hh).1, ← back k (mem_filter.1 hk).1, e]
    · obtain ⟨a, b⟩ := mem_filter.1 hh
      exact ⟨m.heNext h, mem_filter.2 ⟨int_next hv a, b⟩, back h a⟩
  rw [row, sum_sub_distrib, shift, sum_filter, sum_filter, ← sum_sub_distrib, ← sum_neg_distrib]
  refine sum_congr rfl (fun h hh => ?_)
  rw [show m.diff (number vs) (fun i => if i = number vs v then (1 : ℝ) else 0) h = (if m.heVertex (m.heNext h) = v then 1 else 0) - (if m.heVertex h = v then 1 else 0) by
    unfold diff
    simp only [ni h hh, ni _ (int_next hv hh)]]
  split <;> split <;> ring

/-- The hypotheses hold on the triangle with a curved interior vertex that is scaled by its own factor. -/
example : wheel.Valid ∧ wheel.TriFaces ∧ wheel.Metric (fun _ => 1) ∧ (wheel.vLive 3 ∧ ¬ wheel.OnBoundary 3) ∧ ∃ (u : ℕ → ℝ) (lens : ℝ → ℕ → ℝ) (ind : ℕ → ℕ), wheel.getVertexIndices = .ok ind ∧ u (ind 3) ≠ 0 ∧
    ∀ s h, wheel.heLive h → lens s (h / 2) = 1 * Real.exp (s * ((u (ind (wheel.heVertex h)) + u (ind (wheel.heVertex (wheel.heNext h)))) / 2)) := by
  refine ⟨wheel_valid, wheel_tri, metric_one _, ⟨by decide +kernel, ?_⟩, fun i => if i = 3 then 1 else 0, fun s e => if e < 3 then 1 else Real.exp (s / 2), number [0, 1, 2, 3], rfl, by simp only [show number [0, 1, 2, 3] 3 = 3 by decide +kernel, if_true]; exact one_ne_zero, fun s h hl => ?_⟩
  · rintro ⟨h, hl, hx, hv⟩
    exact (by decide +kernel : ∀ h < 12, wheel.ext h → wheel.heVertex h ≠ 3) h hl.1 hx hv
  · have lt : h < 12 := hl.1
    rcases (by decide +kernel : ∀ h < 12, (h / 2 < 3 ∧ number [0, 1, 2, 3] (wheel.heVertex h) ≠ 3 ∧ number [0, 1, 2, 3] (wheel.heVertex (wheel.heNext h)) ≠ 3) ∨
        (¬ h / 2 < 3 ∧ number [0, 1, 2, 3] (wheel.heVertex h) = 3 ∧ number [0, 1, 2, 3] (wheel.heVertex (wheel.heNext h)) ≠ 3) ∨
        (¬ h / 2 < 3 ∧ number [0, 1, 2, 3] (wheel.heVertex h) ≠ 3 ∧ number [0, 1, 2, 3] (wheel.heVertex (wheel.heNext h)) = 3)) h lt with ⟨a, b, c⟩ | ⟨a, b, c⟩ | ⟨a, b, c⟩ <;>
      simp [a, b, c, div_eq_mul_inv]

end Mesh
end GC
