import Verif.DirectionFields
import Verif.Props.TangentVertex
import Verif.Props.Embedded

/-! # C73: the indices of a direction field -/

namespace GC
open Classical Finset BVec

theorem stdRound_int (k : ℤ) : stdRound k = k := by
  unfold stdRound
  split
  · rw [Int.floor_intCast_add]; norm_num
  · rw [Int.ceil_eq_iff]; constructor <;> linarith

theorem V2.powInt_toC (u : V2) (n : ℤ) : (u.powInt n).toC = u.toC ^ n := rfl

/-- The angle computed by the code: its range, and the rotation by it. -/
theorem deltaTheta_spec {x0 x1 rot : V2} (h0 : x0.toC ≠ 0) (h1 : x1.toC ≠ 0) (hr : ‖rot.toC‖ = 1) :
    let d := regularizeAngle (x1.arg - (rot.mul x0).arg + Real.pi) - Real.pi;
    -Real.pi ≤ d ∧ d < Real.pi ∧ (x0.norm : ℂ) * x1.toC = x1.norm * (Complex.exp (d * Complex.I) * (rot.toC * x0.toC)) := by
  intro d
  have tp := Real.two_pi_pos
  set a := x1.arg - (rot.mul x0).arg + Real.pi with ha
  have hd : d = a - 2 * Real.pi * ⌊a / (2 * Real.pi)⌋ - Real.pi := rfl
  have f1 := Int.floor_le (a / (2 * Real.pi))
  have f2 := Int.lt_floor_add_one (a / (2 * Real.pi))
  rw [le_div_iff₀ tp] at f1
  rw [div_lt_iff₀ tp] at f2
  refine ⟨by rw [hd]; linarith, by rw [hd]; linarith, ?_⟩
  have m0 : (rot.mul x0).toC = rot.toC * x0.toC := (C42_vector2_complex _ _ 0).2.2.1
  have e1 : x1.toC = x1.norm * Complex.exp (x1.arg * Complex.I) := by
    rw [(C42_vector2_complex x1 x1 0).2.2.2.2.2.2.2.2.2.2.2, ← V2.norm_toC]
    exact (Complex.norm_mul_exp_arg_mul_I _).symm
  have e0 : rot.toC * x0.toC = x0.norm * Complex.exp ((rot.mul x0).arg * Complex.I) := by
    rw [(C42_vector2_complex (rot.mul x0) x1 0).2.2.2.2.2.2.2.2.2.2.2, m0]
    have : (x0.norm : ℂ) = ‖rot.toC * x0.toC‖ := by rw [norm_mul, hr, one_mul, V2.norm_toC]
    rw [this]
    exact (Complex.norm_mul_exp_arg_mul_I _).symm
  have ed : Complex.exp (d * Complex.I) * Complex.exp ((rot.mul x0).arg * Complex.I) = Complex.exp (x1.arg * Complex.I) := by
    rw [← Complex.exp_add, Complex.exp_eq_exp_iff_exists_int]
    refine ⟨-⌊a / (2 * Real.pi)⌋, ?_⟩
    rw [hd, ha]
    push_cast
    ring
  rw [e0, e1, ← ed]
  ring

/-- Two opposite angles of [−π, π) sum to zero, or both are −π. -/
theorem delta_antisymm {d d' : ℝ} (h1 : -Real.pi ≤ d) (h2 : d < Real.pi) (h1' : -Real.pi ≤ d') (h2' : d' < Real.pi)
    (h : Complex.exp (d * Complex.I) * Complex.exp (d' * Complex.I) = 1) : d + d' = if d = -Real.pi then -(2 * Real.pi) else 0 := by
  rw [← Complex.exp_add, Complex.exp_eq_one_iff] at h
  obtain ⟨k, hk⟩ := h
  have e : d + d' = k * (2 * Real.pi) := by
    have : ((d + d' : ℝ) : ℂ) * Complex.I = ((k * (2 * Real.pi) : ℝ) : ℂ) * Complex.I := by push_cast; linear_combination hk
    exact_mod_cast mul_right_cancel₀ Complex.I_ne_zero this
  have pp := Real.pi_pos
  have k1 : k < 1 := by
    by_contra q
    have : (1 : ℝ) ≤ k := by exact_mod_cast not_lt.1 q
    nlinarith
  have k2 : -1 ≤ k := by
    by_contra q
    have : (k : ℝ) ≤ -2 := by
      have : k ≤ -2 := by omega
      exact_mod_cast this
    nlinarith
  have : k = 0 ∨ k = -1 := by omega
  rcases this with rfl | rfl
  · rw [if_neg]
    · rw [e]; simp
    · intro q
      push_cast at e
      rw [q] at e; linarith
  · push_cast at e
    rw [if_pos (by linarith)]
    linarith

/-- An angle whose rotation is trivial is rounded exactly. -/
theorem round_exact {t : ℝ} (h : Complex.exp (t * Complex.I) = 1) : 2 * Real.pi * (stdRound (t / (2 * Real.pi)) : ℝ) = t := by
  rw [Complex.exp_eq_one_iff] at h
  obtain ⟨k, hk⟩ := h
  have e : t = k * (2 * Real.pi) := by
    have : ((t : ℝ) : ℂ) * Complex.I = ((k * (2 * Real.pi) : ℝ) : ℂ) * Complex.I := by push_cast; linear_combination hk
    exact_mod_cast mul_right_cancel₀ Complex.I_ne_zero this
  rw [e, mul_div_cancel_right₀ _ Real.two_pi_pos.ne', stdRound_int]
  ring

namespace Mesh
variable {m : Mesh} {len : ℕ → ℝ}

theorem not_ext_of_closed (hv : m.Valid) (hb : m.nBL = 0) {h : ℕ} (hl : m.heLive h) : ¬ m.ext h := by
  intro hx
  have hf := hv.face_live _ hl
  have := hv.face_ext_region hl hx
  have := hv.cnt_bl
  have := hf.1
  omega

/-- The rotation of the field along, or across, the halfedges: pairs of opposite edges count twice. -/
theorem sum_delta (hv : m.Valid) {dl : ℕ → ℝ} (h1 : ∀ h, m.heLive h → -Real.pi ≤ dl h ∧ dl h < Real.pi)
    (h2 : ∀ h, m.heLive h → Complex.exp (dl h * Complex.I) * Complex.exp (dl (twin h) * Complex.I) = 1) :
    ∑ h ∈ m.hes, dl h = -(2 * Real.pi * #{e ∈ m.edges | dl (2 * e) = -Real.pi}) := by
  rw [← sum_edges hv]
  have : ∀ e ∈ m.edges, dl (2 * e) + dl (2 * e + 1) = if dl (2 * e) = -Real.pi then -(2 * Real.pi) else 0 := by
    intro e he
    have he := (mem_edges hv).1 he
    have lt := hv.twin_live _ he
    have := h2 _ he
    rw [twin_two_mul] at this lt
    exact delta_antisymm (h1 _ he).1 (h1 _ he).2 (h1 _ lt).1 (h1 _ lt).2 this
  rw [sum_congr rfl this, ← sum_filter, sum_const, nsmul_eq_mul]
  ring

/-- **C73, faces.** The index of a face of a vertex field with `n`-fold symmetry is, before rounding already, an integer: it counts how often the field turns
around the face, relative to parallel transport, where `δ h` in [−π, π) is the turn along a halfedge. On a closed surface the indices sum to
`n` times the Euler characteristic, less the number of edges along which the field turns by exactly a half turn. -/
theorem C73_face_index (m : Mesh) (len : ℕ → ℝ) (x : ℕ → V2) (n : ℤ) (hv : m.Valid) (ht : m.TriFaces) (hm : m.Metric len)
    (hx : ∀ v, m.vLive v → x v ≠ ⟨0, 0⟩) :
    ∃ (idx : ℕ → ℤ) (K : ℕ → ℝ) (along : ℕ → V2) (δ : ℕ → ℝ), m.computeFaceIndex len x n = .ok idx ∧ m.faceGaussianCurvatures len = .ok K ∧
      m.transportVectorsAlongHalfedge len = .ok along ∧
      (∀ h, m.heLive h → -Real.pi ≤ δ h ∧ δ h < Real.pi ∧ ((x (m.heVertex h)).norm : ℂ) * (x (m.heVertex (twin h))).toC =
        (x (m.heVertex (twin h))).norm * (Complex.exp (δ h * Complex.I) * ((along h).toC ^ n * (x (m.heVertex h)).toC))) ∧
      (∀ h, m.heLive h → ¬ m.ext h → ¬ m.ext (twin h) → ¬ m.ext (twin (m.heNext h)) → ¬ m.ext (twin (m.heNext (m.heNext h))) →
        2 * Real.pi * idx (m.heFace h) = n * K (m.heFace h) + (δ h + δ (m.heNext h) + δ (m.heNext (m.heNext h)))) ∧
      (m.nBL = 0 → ∑ f ∈ range m.nFFill with m.fLive f, idx f = n * m.eulerCharacteristic - #{e ∈ range m.nEFill | m.heLive (2 * e) ∧ δ (2 * e) = -Real.pi}) := by
  obtain ⟨vs, hs, is, es, fs, R⟩ := hv.ranges
  obtain ⟨-, along, -, K, -, g2, -, g4, -, g6⟩ := C67_holonomy m len ⟨0, 0⟩ hv ht hm
  obtain ⟨-, K', -, k1, -, k3⟩ := C64_face_gauss_bonnet m len hv ht hm
  rw [g4] at k1; injection k1 with k1; subst k1
  obtain ⟨_, _, along', _, -, -, a1, -, -, -, a5⟩ := C67_vertices m len hv ht hm
  rw [g2] at a1; injection a1 with a1; subst a1
  set δ : ℕ → ℝ := fun h => regularizeAngle ((x (m.heVertex (twin h))).arg - (((along h).powInt n).mul (x (m.heVertex h))).arg + Real.pi) - Real.pi with hδ
  have xne : ∀ v, m.vLive v → (x v).toC ≠ 0 := fun v hl q => hx v hl (V2.toC_inj (by rw [q]; rfl))
  have anorm : ∀ h, m.heLive h → ‖(along h).toC‖ = 1 := fun h hl => by rw [V2.norm_toC]; exact (a5 h hl).2.1
  have ane : ∀ h, m.heLive h → (along h).toC ≠ 0 := by
    intro h hl q
    have := anorm h hl
    rw [q, norm_zero] at this; exact zero_ne_one this
  have spec : ∀ h, m.heLive h → -Real.pi ≤ δ h ∧ δ h < Real.pi ∧ ((x (m.heVertex h)).norm : ℂ) * (x (m.heVertex (twin h))).toC =
      (x (m.heVertex (twin h))).norm * (Complex.exp (δ h * Complex.I) * ((along h).toC ^ n * (x (m.heVertex h)).toC)) := by
    intro h hl
    exact deltaTheta_spec (xne _ (hv.vertex_live h hl)) (xne _ (hv.vertex_live _ (hv.twin_live h hl))) (by rw [V2.powInt_toC, norm_zpow, anorm h hl, one_zpow])
  -- the turn as a quotient of unit vectors
  set u : ℕ → ℂ := fun v => (x v).toC / (x v).norm with hu
  have une : ∀ v, m.vLive v → u v ≠ 0 := fun v hl => div_ne_zero (xne v hl) (by
    have := V2.norm_pos (xne v hl); exact_mod_cast this.ne')
  have turn : ∀ h, m.heLive h → Complex.exp (δ h * Complex.I) * (along h).toC ^ n * u (m.heVertex h) = u (m.heVertex (twin h)) := by
    intro h hl
    have p0 : ((x (m.heVertex h)).norm : ℂ) ≠ 0 := by exact_mod_cast (V2.norm_pos (xne _ (hv.vertex_live h hl))).ne'
    have p1 : ((x (m.heVertex (twin h))).norm : ℂ) ≠ 0 := by exact_mod_cast (V2.norm_pos (xne _ (hv.vertex_live _ (hv.twin_live h hl)))).ne'
    have := (spec h hl).2.2
    rw [hu]
    simp only
    rw [mul_div_assoc', div_eq_div_iff p0 p1]
    linear_combination -this
  -- one face
  have face : ∀ h, m.heLive h → ¬ m.ext h → Complex.exp (((n * K (m.heFace h) + (δ h + δ (m.heNext h) + δ (m.heNext (m.heNext h))) : ℝ) : ℂ) * Complex.I) = 1 := by
    intro h hl hxx
    have l1 := hv.next_live h hl
    have l2 := hv.next_live _ l1
    have t0 := turn h hl
    have t1 := turn _ l1
    have t2 := turn _ l2
    rw [← hv.vertex_next hl] at t0
    rw [← hv.vertex_next l1] at t1
    rw [← hv.vertex_next l2, ht h hl hxx] at t2
    have ho := g6 h hl hxx
    have e : (((n * K (m.heFace h) + (δ h + δ (m.heNext h) + δ (m.heNext (m.heNext h))) : ℝ) : ℂ) * Complex.I) =
        n * (K (m.heFace h) * Complex.I) + (δ h * Complex.I + δ (m.heNext h) * Complex.I + δ (m.heNext (m.heNext h)) * Complex.I) := by push_cast; ring
    rw [e, Complex.exp_add, Complex.exp_add, Complex.exp_add, Complex.exp_int_mul, ← ho, mul_zpow, mul_zpow]
    have n0 := une _ (hv.vertex_live h hl)
    apply mul_right_cancel₀ n0
    rw [one_mul]
    rw [← t1, ← t0] at t2
    linear_combination t2
  set I : ℕ → ℤ := fun f => stdRound ((([m.fHalfedge f, m.heNext (m.fHalfedge f), m.heNext (m.heNext (m.fHalfedge f))].foldl (fun totalRot he =>
      if m.heIsInterior (twin he) then totalRot + δ he else totalRot) (K f * n))) / (2 * Real.pi)) with hI
  have idx : ∀ h, m.heLive h → ¬ m.ext h → ¬ m.ext (twin h) → ¬ m.ext (twin (m.heNext h)) → ¬ m.ext (twin (m.heNext (m.heNext h))) →
      2 * Real.pi * assign (fun _ => 0) I fs (m.heFace h) = n * K (m.heFace h) + (δ h + δ (m.heNext h) + δ (m.heNext (m.heNext h))) := by
    intro h hl h0 x0 x1 x2
    have hh := mem_ints.2 ⟨hl, h0⟩
    have hf := int_face hv hh
    rw [assign_apply, if_pos ((R.mf _).2 hf)]
    obtain ⟨q1, q2⟩ := mem_faces.1 hf
    obtain ⟨l0, e0⟩ := hv.f_he _ q1
    have y0 : ¬ m.ext (m.fHalfedge (m.heFace h)) := face_not_ext hv (by rw [e0]; exact q2)
    have t := ht h hl h0
    have cs : m.fHalfedge (m.heFace h) = h ∨ m.fHalfedge (m.heFace h) = m.heNext h ∨ m.fHalfedge (m.heFace h) = m.heNext (m.heNext h) :=
      hv.tri_mem hl l0 t e0
    have val : I (m.heFace h) = stdRound ((n * K (m.heFace h) + (δ h + δ (m.heNext h) + δ (m.heNext (m.heNext h)))) / (2 * Real.pi)) := by
      rw [hI]
      simp only [List.foldl_cons, List.foldl_nil]
      rcases cs with q | q | q <;> rw [q] <;> (try rw [t]) <;>
        rw [if_pos (heInterior_iff.2 x0), if_pos (heInterior_iff.2 x1), if_pos (heInterior_iff.2 x2)] <;> congr 2 <;> ring
    rw [val]
    exact round_exact (face h hl h0)
  refine ⟨assign (fun _ => 0) I fs, K, along, δ, ?_, g4, g2, spec, idx, fun hb => ?_⟩
  · simp only [computeFaceIndex, bind, Except.bind, g2, g4, R.f]
    refine assignM_ok (fun f hf => ?_) _
    rw [nav_tri hv ht ((R.mf f).1 hf)]
  · have cl : ∀ h, m.heLive h → ¬ m.ext h := fun h hl => not_ext_of_closed hv hb hl
    have eF : ({f ∈ range m.nFFill | m.fLive f} : Finset ℕ) = m.faces := by
      ext f
      rw [mem_filter, mem_range, mem_faces]
      exact and_comm
    have eE : ({e ∈ range m.nEFill | m.heLive (2 * e) ∧ δ (2 * e) = -Real.pi} : Finset ℕ) = {e ∈ m.edges | δ (2 * e) = -Real.pi} := by
      ext e
      rw [mem_filter, mem_filter, mem_edges hv, mem_range]
      constructor
      · exact fun q => q.2
      · intro q
        exact ⟨mem_range.1 (mem_filter.1 ((mem_edges hv).2 q.1)).1, q⟩
    have eI : m.ints = m.hes := by
      ext h
      rw [mem_ints, mem_hes]
      exact ⟨fun q => q.1, fun q => ⟨q, cl h q⟩⟩
    rw [eF, eE]
    have sd := sum_delta hv (dl := δ) (fun h hl => ⟨(spec h hl).1, (spec h hl).2.1⟩) (fun h hl => by
      have t0 := turn h hl
      have t1 := turn _ (hv.twin_live h hl)
      rw [twin_twin] at t1
      have iv := congrArg V2.toC (a5 h hl).2.2
      rw [(C42_vector2_complex _ _ 0).2.2.1] at iv
      have iv' : (along (twin h)).toC * (along h).toC = 1 := iv
      rw [← t0] at t1
      apply mul_right_cancel₀ (une _ (hv.vertex_live h hl))
      have z : (along (twin h)).toC ^ n * (along h).toC ^ n = 1 := by rw [← mul_zpow, iv', one_zpow]
      rw [one_mul]
      linear_combination t1 - Complex.exp (δ h * Complex.I) * Complex.exp (δ (twin h) * Complex.I) * u (m.heVertex h) * z)
    rw [← eI, ← sum_faces hv ht] at sd
    rw [eF] at k3
    have tot : 2 * Real.pi * ((∑ f ∈ m.faces, assign (fun _ => 0) I fs f : ℤ) : ℝ) = ∑ f ∈ m.faces, (n * K f +
        (δ (m.fHalfedge f) + δ (m.heNext (m.fHalfedge f)) + δ (m.heNext (m.heNext (m.fHalfedge f))))) := by
      rw [Int.cast_sum, mul_sum]
      refine sum_congr rfl (fun f hf => ?_)
      obtain ⟨q1, q2⟩ := mem_faces.1 hf
      obtain ⟨l0, e0⟩ := hv.f_he _ q1
      have l1 := hv.next_live _ l0
      have l2 := hv.next_live _ l1
      have := idx _ l0 (cl _ l0) (cl _ (hv.twin_live _ l0)) (cl _ (hv.twin_live _ l1)) (cl _ (hv.twin_live _ l2))
      rw [e0] at this
      exact this
    rw [sum_add_distrib, sd, ← mul_sum, k3] at tot
    have ec : (m.eulerCharacteristic : ℝ) = m.nV - m.nE + m.nF := by
      unfold eulerCharacteristic
      rw [hb]
      push_cast
      ring
    have tp := Real.two_pi_pos.ne'
    have fin : ((∑ f ∈ m.faces, assign (fun _ => 0) I fs f : ℤ) : ℝ) = ((n * m.eulerCharacteristic - #{e ∈ m.edges | δ (2 * e) = -Real.pi} : ℤ) : ℝ) := by
      apply mul_left_cancel₀ tp
      rw [tot]
      push_cast
      rw [ec]
      ring
    exact_mod_cast fin

/-- **C73, vertices.** The index of an interior vertex of a face field with `n`-fold symmetry is, before rounding already, an integer: it counts how often
the field turns around the vertex, relative to parallel transport, where `δ h` in [−π, π) is the turn across a halfedge. Boundary vertices get index 0.
On a closed surface the indices sum to `n` times the Euler characteristic, less the number of edges across which the field turns by exactly a half turn. -/
theorem C73_vertex_index (m : Mesh) (len : ℕ → ℝ) (nan : V2) (x : ℕ → V2) (n : ℤ) (hv : m.Valid) (ht : m.TriFaces) (hm : m.Metric len)
    (hx : ∀ f, m.fLive f → f < m.nFFill → x f ≠ ⟨0, 0⟩) :
    ∃ (idx : ℕ → ℤ) (K : ℕ → ℝ) (across : ℕ → V2) (δ : ℕ → ℝ), m.computeVertexIndex len nan x n = .ok idx ∧ m.vertexGaussianCurvatures len = .ok K ∧
      m.transportVectorsAcrossHalfedge len nan = .ok across ∧
      (∀ h, m.heLive h → ¬ m.ext h → ¬ m.ext (twin h) → -Real.pi ≤ δ h ∧ δ h < Real.pi ∧ ((x (m.heFace h)).norm : ℂ) * (x (m.heFace (twin h))).toC =
        (x (m.heFace (twin h))).norm * (Complex.exp (δ h * Complex.I) * ((across h).toC ^ n * (x (m.heFace h)).toC))) ∧
      (∀ v, m.vLive v → ¬ m.OnBoundary v →
        2 * Real.pi * idx v = n * K v + ∑ h ∈ range m.nHeFill with m.heLive h ∧ m.heVertex (m.heNext h) = v, δ h) ∧
      (∀ v, m.vLive v → m.OnBoundary v → idx v = 0) ∧
      (m.nBL = 0 → ∑ v ∈ range m.nVFill with m.vLive v, idx v = n * m.eulerCharacteristic - #{e ∈ range m.nEFill | m.heLive (2 * e) ∧ δ (2 * e) = -Real.pi}) := by
  obtain ⟨vs, hs, is, es, fs, R⟩ := hv.ranges
  obtain ⟨across, -, K, -, g1, -, g3, -, g5, -⟩ := C67_holonomy m len nan hv ht hm
  obtain ⟨_, across', _, -, a1, -, -, -, a5, -⟩ := C67_faces m len nan hv ht hm
  rw [g1] at a1; injection a1 with a1; subst a1
  set δ : ℕ → ℝ := fun h => regularizeAngle ((x (m.heFace (twin h))).arg - (((across h).powInt n).mul (x (m.heFace h))).arg + Real.pi) - Real.pi with hδ
  have xne : ∀ f ∈ m.faces, (x f).toC ≠ 0 := fun f hl q => hx f (mem_faces.1 hl).1 (mem_faces.1 hl).2 (V2.toC_inj (by rw [q]; rfl))
  have fin : ∀ h, m.heLive h → ¬ m.ext h → m.heFace h ∈ m.faces := fun h hl h0 => int_face hv (mem_ints.2 ⟨hl, h0⟩)
  have anorm : ∀ h, m.heLive h → ¬ m.ext h → ¬ m.ext (twin h) → ‖(across h).toC‖ = 1 := fun h hl h0 h1 => by rw [V2.norm_toC]; exact (a5 h hl h0 h1).2.1
  have spec : ∀ h, m.heLive h → ¬ m.ext h → ¬ m.ext (twin h) → -Real.pi ≤ δ h ∧ δ h < Real.pi ∧ ((x (m.heFace h)).norm : ℂ) * (x (m.heFace (twin h))).toC =
        (x (m.heFace (twin h))).norm * (Complex.exp (δ h * Complex.I) * ((across h).toC ^ n * (x (m.heFace h)).toC)) := by
    intro h hl h0 h1
    exact deltaTheta_spec (xne _ (fin h hl h0)) (xne _ (fin _ (hv.twin_live h hl) h1)) (by rw [V2.powInt_toC, norm_zpow, anorm h hl h0 h1, one_zpow])
  set u : ℕ → ℂ := fun f => (x f).toC / (x f).norm with hu
  have une : ∀ f ∈ m.faces, u f ≠ 0 := fun f hl => div_ne_zero (xne f hl) (by
    have := V2.norm_pos (xne f hl); exact_mod_cast this.ne')
  have turn : ∀ h, m.heLive h → ¬ m.ext h → ¬ m.ext (twin h) → Complex.exp (δ h * Complex.I) * (across h).toC ^ n * u (m.heFace h) = u (m.heFace (twin h)) := by
    intro h hl h0 h1
    have p0 : ((x (m.heFace h)).norm : ℂ) ≠ 0 := by exact_mod_cast (V2.norm_pos (xne _ (fin h hl h0))).ne'
    have p1 : ((x (m.heFace (twin h))).norm : ℂ) ≠ 0 := by exact_mod_cast (V2.norm_pos (xne _ (fin _ (hv.twin_live h hl) h1))).ne'
    have := (spec h hl h0 h1).2.2
    rw [hu]
    simp only
    rw [mul_div_assoc', div_eq_div_iff p0 p1]
    linear_combination -this
  set inc : ℕ → Finset ℕ := fun v => {h ∈ range m.nHeFill | m.heLive h ∧ m.heVertex (m.heNext h) = v} with hinc
  have minc : ∀ {v h}, h ∈ inc v ↔ m.heLive h ∧ m.heVertex (m.heNext h) = v := by
    intro v h
    rw [hinc]
    simp only [mem_filter, mem_range]
    exact ⟨fun q => q.2, fun q => ⟨q.1.1, q⟩⟩
  -- all halfedges at an interior vertex are interior, on both sides
  have int1 : ∀ {v h}, ¬ m.OnBoundary v → h ∈ inc v → ¬ m.ext h := by
    intro v h nb hh z
    obtain ⟨l, e⟩ := minc.1 hh
    exact nb ⟨_, hv.next_live _ l, (hv.ext_next l).2 z, e⟩
  have int2 : ∀ {v h}, ¬ m.OnBoundary v → h ∈ inc v → ¬ m.ext (twin h) := by
    intro v h nb hh z
    obtain ⟨l, e⟩ := minc.1 hh
    exact nb ⟨_, hv.twin_live _ l, z, by rw [← hv.vertex_next l, e]⟩
  -- around one vertex
  have vert : ∀ v, m.vLive v → ¬ m.OnBoundary v → Complex.exp (((n * K v + ∑ h ∈ inc v, δ h : ℝ) : ℂ) * Complex.I) = 1 := by
    intro v hl nb
    have ho : ∏ h ∈ inc v, (across h).toC = Complex.exp (K v * Complex.I) := by
      rw [← g5 v hl nb]
      symm
      refine prod_bij (fun h _ => m.heNext (m.heNext h)) (fun h hh => ?_) (fun h hh h' hh' e => ?_) (fun h hh => ?_) (fun h _ => rfl)
      · obtain ⟨l, e⟩ := (mem_filter.1 hh).2
        refine minc.2 ⟨hv.next_live _ (hv.next_live _ l), ?_⟩
        rw [ht h l (fun z => nb ⟨h, l, z, e⟩), e]
      · have l := (mem_filter.1 hh).2.1
        have l' := (mem_filter.1 hh').2.1
        exact hv.next_inj l l' (hv.next_inj (hv.next_live _ l) (hv.next_live _ l') e)
      · obtain ⟨l, e⟩ := minc.1 hh
        have l1 := hv.next_live _ l
        exact ⟨m.heNext h, mem_filter.2 ⟨mem_range.2 l1.1, l1, e⟩, ht h l (int1 nb hh)⟩
    have hu' : ∏ h ∈ inc v, u (m.heFace (twin h)) = ∏ h ∈ inc v, u (m.heFace h) := by
      have mp : ∀ h ∈ inc v, twin (m.heNext h) ∈ inc v := by
        intro h hh
        obtain ⟨l, e⟩ := minc.1 hh
        have l1 := hv.twin_live _ (hv.next_live _ l)
        exact minc.2 ⟨l1, by rw [hv.vertex_next l1, twin_twin, e]⟩
      have ij : ∀ h ∈ inc v, ∀ h' ∈ inc v, twin (m.heNext h) = twin (m.heNext h') → h = h' := by
        intro h hh h' hh' e
        have e := congrArg twin e
        rw [twin_twin, twin_twin] at e
        exact hv.next_inj (minc.1 hh).1 (minc.1 hh').1 e
      symm
      refine prod_bij (fun h _ => twin (m.heNext h)) mp (fun h hh h' hh' e => ij h hh h' hh' e) (fun h hh => ?_) (fun h hh => ?_)
      · have := surjOn_of_injOn_of_card_le (s := inc v) (t := inc v) (fun h => twin (m.heNext h)) (fun h hh => mp h hh) (fun h hh h' hh' e => ij h hh h' hh' e) le_rfl
        obtain ⟨a, b, c⟩ := this hh
        exact ⟨a, b, c⟩
      · rw [twin_twin, hv.face_next (minc.1 hh).1]
    have tp := prod_congr (s₁ := inc v) rfl (fun h hh => turn h (minc.1 hh).1 (int1 nb hh) (int2 nb hh))
    rw [hu', prod_mul_distrib, prod_mul_distrib, prod_zpow, ho, ← Complex.exp_sum] at tp
    have e : (((n * K v + ∑ h ∈ inc v, δ h : ℝ) : ℂ) * Complex.I) = n * (K v * Complex.I) + ∑ h ∈ inc v, δ h * Complex.I := by
      push_cast; rw [← sum_mul]; ring
    rw [e, Complex.exp_add, Complex.exp_int_mul]
    have n0 : ∏ h ∈ inc v, u (m.heFace h) ≠ 0 := prod_ne_zero_iff.2 (fun h hh => une _ (fin h (minc.1 hh).1 (int1 nb hh)))
    apply mul_right_cancel₀ n0
    rw [one_mul]
    linear_combination tp
  -- the curvature of a boundary vertex
  have kb : ∀ v, m.vLive v → m.OnBoundary v → K v = 0 := by
    intro v hl hb
    obtain ⟨sums, c1, -⟩ := vertexAngleSums_ok (len := len) R
    have e : K = vs.foldl (fun d v => if ¬ m.vIsBoundary v then Function.update d v (2 * Real.pi - sums v) else d) (fun _ => 0) := by
      unfold vertexGaussianCurvatures at g3; rw [c1, R.v] at g3
      injection g3 with g3
      exact g3.symm
    rw [e, foldl_local (S := fun u x => u = x ∧ ¬ m.vIsBoundary u) (val := fun x => 2 * Real.pi - sums x), if_neg]
    · rintro ⟨w, -, rfl, q⟩
      exact q ((hv.vIsBoundary_iff hl).2 hb)
    · rintro d u - x ⟨rfl, q⟩
      rw [if_pos q, Function.update_self]
    · intro d u _ x q
      split
      · rename_i z
        rw [Function.update_of_ne (fun e => q ⟨e.symm, z⟩)]
      · rfl
  set I : ℕ → ℤ := fun v => stdRound ((K v * n + if m.vIsBoundary v then 0 else ∑ h ∈ inc v, δ h) / (2 * Real.pi)) with hI
  have idx : ∀ v, m.vLive v → ¬ m.OnBoundary v → 2 * Real.pi * assign (fun _ => 0) I vs v = n * K v + ∑ h ∈ inc v, δ h := by
    intro v hl nb
    rw [assign_apply, if_pos ((R.mv _).2 (mem_verts.2 hl)), hI]
    simp only
    rw [if_neg (fun q => nb ((hv.vIsBoundary_iff hl).1 q)), mul_comm (K v)]
    exact round_exact (vert v hl nb)
  refine ⟨assign (fun _ => 0) I vs, K, across, δ, ?_, g3, g1, spec, idx, fun v hl hb => ?_, fun hb => ?_⟩
  · simp only [computeVertexIndex, bind, Except.bind, g1, g3, R.v]
    refine assignM_ok (fun v hl => ?_) _
    have hl := mem_verts.1 ((R.mv v).1 hl)
    by_cases q : m.vIsBoundary v
    · rw [if_neg (not_not.2 q)]
      simp only [List.foldl_nil, hI, if_pos q, add_zero]
    · obtain ⟨l, n1, n2, n3, -⟩ := C49_vertex_incoming m hv v hl
      rw [if_pos q, n1]
      simp only [hI, if_neg q]
      rw [foldl_add (f := δ)]
      have : l.toFinset = inc v := by
        ext h; rw [List.mem_toFinset, n3, minc]
      rw [← this, List.sum_toFinset _ n2]
  · rw [assign_apply, if_pos ((R.mv _).2 (mem_verts.2 hl)), hI]
    simp only
    rw [if_pos ((hv.vIsBoundary_iff hl).2 hb), kb v hl hb, zero_mul, add_zero, zero_div]
    exact_mod_cast stdRound_int 0
  · have cl : ∀ h, m.heLive h → ¬ m.ext h := fun h hl => not_ext_of_closed hv hb hl
    have nb : ∀ v, ¬ m.OnBoundary v := by
      rintro v ⟨h, a, b, -⟩
      exact cl h a b
    have eV : ({v ∈ range m.nVFill | m.vLive v} : Finset ℕ) = m.verts := rfl
    have eE : ({e ∈ range m.nEFill | m.heLive (2 * e) ∧ δ (2 * e) = -Real.pi} : Finset ℕ) = {e ∈ m.edges | δ (2 * e) = -Real.pi} := by
      rw [edges, filter_filter]
    obtain ⟨K', k1, k3⟩ := C64_gauss_bonnet_closed m len hv ht hm hb
    rw [g3] at k1; injection k1 with k1; subst k1
    rw [eV] at k3 ⊢
    rw [eE]
    have sd := sum_delta hv (dl := δ) (fun h hl => have s := spec h hl (cl _ hl) (cl _ (hv.twin_live h hl)); ⟨s.1, s.2.1⟩) (fun h hl => by
      have lt := hv.twin_live h hl
      have t0 := turn h hl (cl _ hl) (cl _ lt)
      have t1 := turn _ lt (cl _ lt) (by rw [twin_twin]; exact cl _ hl)
      rw [twin_twin] at t1
      have iv := congrArg V2.toC (a5 h hl (cl _ hl) (cl _ lt)).2.2
      rw [(C42_vector2_complex _ _ 0).2.2.1] at iv
      have iv' : (across (twin h)).toC * (across h).toC = 1 := iv
      rw [← t0] at t1
      apply mul_right_cancel₀ (une _ (fin h hl (cl _ hl)))
      have z : (across (twin h)).toC ^ n * (across h).toC ^ n = 1 := by rw [← mul_zpow, iv', one_zpow]
      rw [one_mul]
      linear_combination t1 - Complex.exp (δ h * Complex.I) * Complex.exp (δ (twin h) * Complex.I) * u (m.heFace h) * z)
    have tot : 2 * Real.pi * ((∑ v ∈ m.verts, assign (fun _ => 0) I vs v : ℤ) : ℝ) = n * ∑ v ∈ m.verts, K v + ∑ h ∈ m.hes, δ h := by
      rw [Int.cast_sum, mul_sum, sum_congr rfl (fun v hl => idx v (mem_verts.1 hl) (nb v)), sum_add_distrib, ← mul_sum]
      congr 1
      have : ∀ v ∈ m.verts, ∑ h ∈ inc v, δ h = ∑ h ∈ m.hes, if m.heVertex (m.heNext h) = v then δ h else 0 := by
        intro v _
        rw [← sum_filter]
        refine sum_congr ?_ (fun _ _ => rfl)
        ext h; rw [minc, mem_filter, mem_hes]
      rw [sum_congr rfl this, sum_comm]
      refine sum_congr rfl (fun h hh => ?_)
      rw [sum_ite_eq, if_pos (mem_verts.2 (hv.vertex_live _ (hv.next_live _ (mem_hes.1 hh))))]
    rw [sd, k3] at tot
    have tp := Real.two_pi_pos.ne'
    have fin : ((∑ v ∈ m.verts, assign (fun _ => 0) I vs v : ℤ) : ℝ) = ((n * m.eulerCharacteristic - #{e ∈ m.edges | δ (2 * e) = -Real.pi} : ℤ) : ℝ) := by
      apply mul_left_cancel₀ tp
      rw [tot]
      push_cast
      ring
    exact_mod_cast fin

/-- **C73, refuted in part.** On every closed surface with an edge between distinct vertices there is a field of unit vectors whose indices do not sum to
`n` times the Euler characteristic: the turn is taken in [−π, π), so that a half turn counts as −π from either side of the edge. -/
theorem C73_half_turn (m : Mesh) (len : ℕ → ℝ) (n : ℤ) (hv : m.Valid) (ht : m.TriFaces) (hm : m.Metric len) (hb : m.nBL = 0)
    {e : ℕ} (he : m.heLive (2 * e)) (hd : m.heVertex (2 * e) ≠ m.heVertex (twin (2 * e))) :
    ∃ (x : ℕ → V2) (idx : ℕ → ℤ), (∀ v, (x v).norm = 1) ∧ m.computeFaceIndex len x n = .ok idx ∧
      ∑ f ∈ range m.nFFill with m.fLive f, idx f < n * m.eulerCharacteristic := by
  obtain ⟨_, _, along, _, -, -, a1, -, -, -, a5⟩ := C67_vertices m len hv ht hm
  have an : ‖(along (2 * e)).toC‖ = 1 := by rw [V2.norm_toC]; exact (a5 _ he).2.1
  set x : ℕ → V2 := fun v => if v = m.heVertex (twin (2 * e)) then ((along (2 * e)).powInt n).neg else ⟨1, 0⟩ with hx
  have x0 : x (m.heVertex (2 * e)) = ⟨1, 0⟩ := if_neg hd
  have x1 : x (m.heVertex (twin (2 * e))) = ((along (2 * e)).powInt n).neg := if_pos rfl
  have c0 : (⟨1, 0⟩ : V2).toC = 1 := rfl
  have c1 : (((along (2 * e)).powInt n).neg).toC = -(along (2 * e)).toC ^ n := (C42_vector2_complex _ ⟨0, 0⟩ 0).2.2.2.2.1
  have n0 : (⟨1, 0⟩ : V2).norm = 1 := by rw [← V2.norm_toC, c0, norm_one]
  have n1 : (((along (2 * e)).powInt n).neg).norm = 1 := by rw [← V2.norm_toC, c1, norm_neg, norm_zpow, an, one_zpow]
  have xn : ∀ v, (x v).norm = 1 := by
    intro v
    rw [hx]
    simp only
    split
    · exact n1
    · exact n0
  obtain ⟨idx, K, along', δ, i1, -, i2, i3, -, i4⟩ := C73_face_index m len x n hv ht hm (fun v _ q => by
    have := xn v
    rw [← V2.norm_toC, q, show (⟨0, 0⟩ : V2).toC = 0 from rfl, norm_zero] at this
    exact zero_ne_one this)
  rw [a1] at i2; injection i2 with i2; subst i2
  refine ⟨x, idx, xn, i1, ?_⟩
  rw [i4 hb]
  have hde : δ (2 * e) = -Real.pi := by
    obtain ⟨s1, s2, s3⟩ := i3 _ he
    rw [x0, x1, n0, n1, c0, c1] at s3
    have z : (along (2 * e)).toC ^ n ≠ 0 := by
      rw [← norm_ne_zero_iff, norm_zpow, an, one_zpow]; exact one_ne_zero
    have : Complex.exp (δ (2 * e) * Complex.I) = -1 := by
      apply mul_right_cancel₀ z
      push_cast at s3
      linear_combination -s3
    rw [← Complex.exp_pi_mul_I, Complex.exp_eq_exp_iff_exists_int] at this
    obtain ⟨k, hk⟩ := this
    have er : δ (2 * e) = Real.pi + k * (2 * Real.pi) := by
      have : ((δ (2 * e) : ℝ) : ℂ) * Complex.I = ((Real.pi + k * (2 * Real.pi) : ℝ) : ℂ) * Complex.I := by push_cast; linear_combination hk
      exact_mod_cast mul_right_cancel₀ Complex.I_ne_zero this
    have pp := Real.pi_pos
    have k1 : k < 0 := by
      by_contra q
      have : (0 : ℝ) ≤ k := by exact_mod_cast not_lt.1 q
      nlinarith
    have k2 : -2 < k := by
      by_contra q
      have : (k : ℝ) ≤ -2 := by exact_mod_cast not_lt.1 q
      nlinarith
    have : k = -1 := by omega
    rw [er, this]
    push_cast
    ring
  have : 0 < #{e ∈ range m.nEFill | m.heLive (2 * e) ∧ δ (2 * e) = -Real.pi} := card_pos.2 ⟨e, mem_filter.2 ⟨?_, he, hde⟩⟩
  · omega
  · exact (mem_filter.1 ((mem_edges hv).2 he)).1

example : tetra.heLive (2 * 0) ∧ tetra.heVertex (2 * 0) ≠ tetra.heVertex (twin (2 * 0)) := by
  constructor
  · exact ⟨by decide, by decide⟩
  · decide

/-- The tetrahedron with unit edges and a constant field in the bases of its vertices, or of its faces. -/
example : tetra.Valid ∧ tetra.TriFaces ∧ tetra.Metric (fun _ => 1) ∧ tetra.nBL = 0 ∧ (∀ v, tetra.vLive v → (fun _ : ℕ => (⟨1, 0⟩ : V2)) v ≠ ⟨0, 0⟩) :=
  ⟨tetra_valid, tetra_tri, metric_one _, rfl, fun _ _ q => one_ne_zero (congrArg V2.x q)⟩

end Mesh
end GC
