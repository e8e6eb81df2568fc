import Verif.HeatDistance
import Verif.Props.PolygonSigned
import Verif.Props.Tangent
import Verif.Props.DEC
import Verif.Props.Embedded
import Verif.Props.Soup
import Verif.Props.SurfacePoint

/-! # C91: the heat method for geodesic distance -/

namespace GC
open Classical Finset

namespace Mesh
variable {m : Mesh} {len : ℕ → ℝ} {nan : V2} {vs hs is es fs : List ℕ}

/-- **C91, operators.** On every triangle mesh, for every time, the two matrices that are factored are symmetric and positive definite. -/
theorem C91_operators (m : Mesh) (len : ℕ → ℝ) (tCoef : ℝ) (hv : m.Valid) (ht : m.TriFaces) (hm : m.Metric len) (h0 : 0 ≤ tCoef) :
    ∃ H P, m.heatOp len tCoef = .ok H ∧ m.poissonOp len = .ok P ∧ (∀ i < m.nV, ∀ j < m.nV, H i j = H j i ∧ P i j = P j i) ∧
      ∀ u : ℕ → ℝ, (∃ i < m.nV, u i ≠ 0) → 0 < ∑ i ∈ range m.nV, ∑ j ∈ range m.nV, u i * H i j * u j ∧
        0 < ∑ i ∈ range m.nV, ∑ j ∈ range m.nV, u i * P i j * u j := by
  obtain ⟨vs, hs, is, es, fs, R⟩ := hv.ranges
  obtain ⟨L, ind, l1, i1, l2, -, -, l3, -⟩ := C65_cotan m len hv ht hm
  obtain ⟨B, ind', M, G, b1, i1', m1, -, m2, m3, -⟩ := C66_vertex_mass m len hv ht hm
  obtain ⟨A, B', -, b1', b2, -⟩ := C66_dual_areas m len hv ht hm
  rw [b1] at b1'
  injection b1' with b1'
  subst b1'
  rw [R.iv.1] at i1'
  injection i1' with i1'
  subst i1'
  have md : ∀ i < m.nV, 0 < M i i := by
    intro i hi
    obtain ⟨v, vl, rfl⟩ := R.iv.2.2.1 i hi
    rw [m2 v vl]
    exact (b2 v vl).2.1
  obtain ⟨t, t1, t2⟩ : ∃ t, m.heatTime len tCoef = .ok t ∧ 0 ≤ t := by
    refine ⟨_, by simp only [heatTime, R.e, bind, Except.bind]; rfl, ?_⟩
    rw [mul_assoc]
    exact mul_nonneg h0 (mul_self_nonneg _)
  -- a diagonal matrix with positive diagonal plus a multiple of the Laplacian
  have key : ∀ (D : ℕ → ℕ → ℝ) (s : ℝ), 0 ≤ s → (∀ i < m.nV, 0 < D i i) → (∀ i j, i ≠ j → D i j = 0) → ∀ u : ℕ → ℝ, (∃ i < m.nV, u i ≠ 0) →
      0 < ∑ i ∈ range m.nV, ∑ j ∈ range m.nV, u i * (D i j + s * L i j) * u j := by
    intro D s hs hd ho u hu
    have e : ∑ i ∈ range m.nV, ∑ j ∈ range m.nV, u i * (D i j + s * L i j) * u j =
        ∑ i ∈ range m.nV, D i i * u i ^ 2 + s * ∑ i ∈ range m.nV, ∑ j ∈ range m.nV, u i * L i j * u j := by
      rw [mul_sum, ← sum_add_distrib]
      refine sum_congr rfl (fun i hi => ?_)
      rw [mul_sum]
      have : D i i * u i ^ 2 = ∑ j ∈ range m.nV, u i * D i j * u j := by
        rw [sum_eq_single i]
        · ring
        · intro j _ hj; rw [ho i j (Ne.symm hj)]; ring
        · intro h; exact absurd hi h
      rw [this, ← sum_add_distrib]
      exact sum_congr rfl (fun j _ => by ring)
    rw [e]
    obtain ⟨i, hi, hne⟩ := hu
    refine add_pos_of_pos_of_nonneg ?_ (mul_nonneg hs (l3 u))
    exact sum_pos' (fun j hj => mul_nonneg (hd j (mem_range.1 hj)).le (sq_nonneg _)) ⟨i, mem_range.2 hi, mul_pos (hd i hi) (by positivity)⟩
  refine ⟨fun i j => M i j + t * L i j, fun i j => L i j + 1e-6 * (if i = j then 1 else 0), by simp only [heatOp, t1, m1, l1, bind, Except.bind],
    by simp only [poissonOp, l1, bind, Except.bind], fun i hi j hj => ⟨?_, ?_⟩, fun u hu => ⟨key M t t2 md m3 u hu, ?_⟩⟩
  · by_cases h : i = j
    · rw [h]
    · simp only [m3 i j h, m3 j i (Ne.symm h), l2 i hi j hj]
  · simp only [l2 i hi j hj, eq_comm (a := i)]
  · have := key (fun i j => 1e-6 * (if i = j then 1 else 0)) 1 zero_le_one (fun i _ => by norm_num) (fun i j h => by simp [h]) u hu
    simp only [one_mul] at this
    simp only [add_comm (L _ _)]
    exact this

/-- The direction computed in a triangle is that of the gradient of the heat. -/
theorem gradDir_tri {a b c : V2} (hc : a.add (b.add c) = ⟨0, 0⟩) {K : ℝ} (hK : 0 < K) (hx : a.cross b = K) {g : V2} {s : ℝ} (hs : 0 < s) (hg : g.norm = 1) {xa xb xc : ℝ}
    (ha : xb - xa = -s * g.dot a) (hb : xc - xb = -s * g.dot b) :
    (((((⟨0, 0⟩ : V2).add (b.rotate90.smul xa)).add (c.rotate90.smul xb)).add (a.rotate90.smul xc))).normalizeCutoff 0 = g.neg := by
  have c1 : c.x = -a.x - b.x := by have := congrArg V2.x hc; simp only [V2.add] at this; linarith
  have c2 : c.y = -a.y - b.y := by have := congrArg V2.y hc; simp only [V2.add] at this; linarith
  have e : ((((⟨0, 0⟩ : V2).add (b.rotate90.smul xa)).add (c.rotate90.smul xb)).add (a.rotate90.smul xc)) = g.smul (-(K * s)) := by
    simp only [V2.cross, V2.dot] at hx ha hb
    simp only [V2.add, V2.smul, V2.rotate90, c1, c2]
    obtain rfl : xb = xa + -s * (g.x * a.x + g.y * a.y) := by linarith
    obtain rfl : xc = xa + -s * (g.x * a.x + g.y * a.y) + -s * (g.x * b.x + g.y * b.y) := by linarith
    subst hx
    ext <;> simp only <;> ring
  have n : g.x * g.x + g.y * g.y = 1 := by
    unfold V2.norm at hg
    rwa [Real.sqrt_eq_one] at hg
  have p : 0 < K * s := mul_pos hK hs
  have l : Real.sqrt ((g.smul (-(K * s))).x * (g.smul (-(K * s))).x + (g.smul (-(K * s))).y * (g.smul (-(K * s))).y) = K * s := by
    rw [show (g.smul (-(K * s))).x * (g.smul (-(K * s))).x + (g.smul (-(K * s))).y * (g.smul (-(K * s))).y = (K * s) * (K * s) * (g.x * g.x + g.y * g.y) by
      simp only [V2.smul]; ring, n, mul_one, Real.sqrt_mul_self p.le]
  rw [e]
  unfold V2.normalizeCutoff
  simp only [l]
  rw [if_neg (not_le.2 p)]
  simp only [V2.smul, V2.neg]
  have q : K * s ≠ 0 := p.ne'
  ext <;> simp only <;> field_simp

/-- The loop over the faces of a triangle mesh. -/
theorem heatDivergence_ok (hv : m.Valid) (ht : m.TriFaces) (R : m.Ranges vs hs is es fs) {vec : ℕ → V2} (hvec : m.halfedgeVectorsInFace len nan = .ok vec) (heat : ℕ → ℝ) :
    ∃ div, m.heatDivergence len nan heat = .ok div ∧ ∃ G : ℕ → V2,
      (∀ f ∈ m.faces, G f = m.gradDir vec (number vs) heat [m.fHalfedge f, m.heNext (m.fHalfedge f), m.heNext (m.heNext (m.fHalfedge f))]) ∧
      ∀ k, div k = ∑ h ∈ m.ints, m.halfedgeCotanWeight len h * (vec h).dot (G (m.heFace h)) *
        ((if number vs (m.heVertex h) = k then 1 else 0) - (if number vs (m.heVertex (m.heNext h)) = k then 1 else 0)) := by
  obtain ⟨w, w1, w2⟩ := halfedgeCotanWeights_ok (len := len) hv R
  set tri : ℕ → List ℕ := fun f => [m.fHalfedge f, m.heNext (m.fHalfedge f), m.heNext (m.heNext (m.fHalfedge f))] with htri
  set G : ℕ → V2 := fun f => m.gradDir vec (number vs) heat (tri f) with hG
  set E : ℕ → ℕ → List (ℕ × ℝ) := fun f he => [(number vs (m.heVertex he), w he * (vec he).dot (G f)), (number vs (m.heVertex (twin he)), -(w he * (vec he).dot (G f)))] with hE
  refine ⟨accum (fun p => p.1) (fun p => p.2) (fs.map fun f => (tri f).flatMap (E f)).flatten, ?_, G, fun f _ => rfl, fun k => ?_⟩
  · simp only [heatDivergence, w1, hvec, R.iv.1, R.f, bind, Except.bind]
    have := Soup.mapM_ok (f := fun f => do
      let hs ← m.navFaceHalfedges f
      .ok (hs.flatMap fun he =>
        let val := w he * (vec he).dot (m.gradDir vec (number vs) heat hs)
        [(number vs (m.heVertex he), val), (number vs (m.heVertex (twin he)), -val)])) (g := fun f => (tri f).flatMap (E f)) (l := fs)
      (fun f hf => by simp only [nav_tri hv ht ((R.mf f).1 hf), bind, Except.bind]; rfl)
    simp only [bind, Except.bind] at this
    rw [this]
  · rw [accum_apply, ← List.flatMap_def, sum_flatMap, sum_of_nodup R.nf (R.mf)]
    rw [← sum_faces hv ht]
    refine sum_congr rfl (fun f hf => ?_)
    obtain ⟨q1, q2⟩ := mem_faces.1 hf
    obtain ⟨l0, e0⟩ := hv.f_he f q1
    have i0 : m.fHalfedge f ∈ m.ints := mem_ints.2 ⟨l0, face_not_ext hv (by rw [e0]; exact q2)⟩
    have i1 := int_next hv i0
    have i2 := int_next hv i1
    have e1 : m.heFace (m.heNext (m.fHalfedge f)) = f := by rw [hv.face_next l0, e0]
    have e2 : m.heFace (m.heNext (m.heNext (m.fHalfedge f))) = f := by rw [hv.face_next (mem_ints.1 i1).1, e1]
    have one : ∀ h ∈ m.ints, m.heFace h = f → ((E f h).map fun x => if x.1 = k then x.2 else 0).sum = m.halfedgeCotanWeight len h * (vec h).dot (G (m.heFace h)) *
        ((if number vs (m.heVertex h) = k then 1 else 0) - (if number vs (m.heVertex (m.heNext h)) = k then 1 else 0)) := by
      intro h hh hf
      have t : m.heVertex (twin h) = m.heVertex (m.heNext h) := by
        have := hv.vertex_vNext (hv.twin_live _ (mem_ints.1 hh).1)
        unfold vNext at this
        rw [twin_twin] at this
        exact this.symm
      simp only [hE, List.map_cons, List.map_nil, List.sum_cons, List.sum_nil, w2, if_pos hh, t, hf]
      split_ifs <;> ring
    rw [sum_flatMap]
    simp only [htri, List.map_cons, List.map_nil, List.sum_cons, List.sum_nil]
    rw [one _ i0 e0, one _ i1 e1, one _ i2 e2]
    ring

/-- A function with gradient `g` in each face, for the vectors `vec` of the halfedges in the faces. -/
def GradientOn (m : Mesh) (vec : ℕ → V2) (φ : ℕ → ℝ) (g : ℕ → V2) : Prop :=
  ∀ h, m.heLive h → ¬ m.ext h → (g (m.heFace h)).dot (vec h) = φ (m.heVertex (m.heNext h)) - φ (m.heVertex h)

/-- **C91, divergence.** The right-hand side of the second system has sum zero, whatever the heat. If in each face the heat falls off along the gradient of `φ`, with any
positive rate, and the gradient has length one, then the right-hand side is the Laplacian applied to `φ`. -/
theorem C91_divergence (m : Mesh) (len : ℕ → ℝ) (nan : V2) (hv : m.Valid) (ht : m.TriFaces) (hm : m.Metric len) (heat : ℕ → ℝ) :
    ∃ div L ind vec, m.heatDivergence len nan heat = .ok div ∧ m.cotanLaplacian len = .ok L ∧ m.getVertexIndices = .ok ind ∧ m.halfedgeVectorsInFace len nan = .ok vec ∧
      ∑ i ∈ range m.nV, div i = 0 ∧
      ∀ (φ ψ : ℕ → ℝ) (g : ℕ → V2) (s : ℕ → ℝ), m.GradientOn vec φ g → (∀ f, m.fLive f → f < m.nFFill → (g f).norm = 1 ∧ 0 < s f) →
        m.GradientOn vec (fun v => heat (ind v)) (fun f => (g f).smul (-s f)) → (∀ v, m.vLive v → ψ (ind v) = φ v) →
        ∀ i < m.nV, div i = ∑ j ∈ range m.nV, L i j * ψ j := by
  obtain ⟨vs, hs, is, es, fs, R⟩ := hv.ranges
  obtain ⟨vec, v1, v2, v3, -⟩ := halfedgeVectorsInFace_ok (nan := nan) hv ht hm R
  obtain ⟨L, l1, l2⟩ := cotanLaplacian_form (len := len) hv R
  obtain ⟨div, d1, G, hG, d2⟩ := heatDivergence_ok hv ht R v1 heat
  refine ⟨div, L, number vs, vec, d1, l1, R.iv.1, v1, ?_, ?_⟩
  · simp only [d2]
    rw [sum_comm]
    refine sum_eq_zero (fun h hh => ?_)
    have hl := (mem_ints.1 hh).1
    rw [← mul_sum, sum_sub_distrib, sum_ite_eq, sum_ite_eq,
      if_pos (mem_range.2 (R.iv.2.1 _ (hv.vertex_live _ hl))), if_pos (mem_range.2 (R.iv.2.1 _ (hv.vertex_live _ (hv.next_live _ hl)))), sub_self, mul_zero]
  · intro φ ψ g s hg h1 hh hψ i hi
    have := l2 (fun a => if a = i then 1 else 0) ψ
    rw [pair_row L hi] at this
    rw [this, d2]
    refine sum_congr rfl (fun h hmem => ?_)
    obtain ⟨hl, hx⟩ := mem_ints.1 hmem
    have hf := int_face hv hmem
    obtain ⟨q1, q2⟩ := mem_faces.1 hf
    obtain ⟨l0, e0⟩ := hv.f_he _ q1
    have i0 : m.fHalfedge (m.heFace h) ∈ m.ints := mem_ints.2 ⟨l0, face_not_ext hv (by rw [e0]; exact q2)⟩
    obtain ⟨-, x0⟩ := mem_ints.1 i0
    obtain ⟨l1', x1⟩ := mem_ints.1 (int_next hv i0)
    have e1 : m.heFace (m.heNext (m.fHalfedge (m.heFace h))) = m.heFace h := by rw [hv.face_next l0, e0]
    have dir : G (m.heFace h) = (g (m.heFace h)).neg := by
      rw [hG _ hf]
      unfold gradDir
      simp only [List.foldl_cons, List.foldl_nil, ht _ l0 x0]
      have k1 := hh _ l0 x0
      have k2 := hh _ l1' x1
      rw [e0] at k1
      rw [e1] at k2
      have cr := v3 _ i0
      rw [e0] at cr
      have ar := faceArea_pos hv hm hf
      refine gradDir_tri (v2.close _ l0 x0) (by linarith) cr (h1 _ q1 q2).2 (h1 _ q1 q2).1 ?_ ?_
      · rw [← k1]; simp only [V2.dot, V2.smul]; ring
      · rw [← k2]; simp only [V2.dot, V2.smul]; ring
    have gh := hg h hl hx
    rw [dir]
    have e : (vec h).dot (g (m.heFace h)).neg = -(m.diff (number vs) ψ h) := by
      unfold diff
      rw [hψ _ (hv.vertex_live _ (hv.next_live _ hl)), hψ _ (hv.vertex_live _ hl), ← gh]
      simp only [V2.dot, V2.neg]; ring
    rw [e]
    unfold diff
    ring

/-- What the shift of the second matrix by a multiple of the identity does. -/
theorem shifted_solution {n : ℕ} {L : ℕ → ℕ → ℝ} {ε : ℝ} (hε : 0 < ε) (sym : ∀ i < n, ∀ j < n, L i j = L j i) (row : ∀ i < n, ∑ j ∈ range n, L i j = 0) {x ψ : ℕ → ℝ}
    (hx : ∀ i < n, ∑ j ∈ range n, (L i j + ε * (if i = j then 1 else 0)) * x j = ∑ j ∈ range n, L i j * ψ j) :
    ∑ i ∈ range n, x i = 0 ∧
    (∀ c, ∑ i ∈ range n, ∑ j ∈ range n, (x i - ψ i) * L i j * (x j - ψ j) ≤ ε / 4 * ∑ i ∈ range n, (ψ i - c) ^ 2) ∧
    ((∀ i < n, ∀ j < n, x i - x j = ψ i - ψ j) → ∀ i < n, ∀ j < n, ψ i = ψ j) := by
  have hx' : ∀ i < n, ∑ j ∈ range n, L i j * (x j - ψ j) = -(ε * x i) := by
    intro i hi
    have := hx i hi
    simp only [add_mul, sum_add_distrib] at this
    rw [show ∑ j ∈ range n, ε * (if i = j then (1 : ℝ) else 0) * x j = ε * x i by
      rw [sum_eq_single i (fun j _ h => by rw [if_neg (Ne.symm h)]; ring) (fun h => absurd (mem_range.2 hi) h)]; simp] at this
    simp only [mul_sub, sum_sub_distrib]
    linarith
  have col : ∀ j < n, ∑ i ∈ range n, L i j = 0 := fun j hj => by
    rw [← row j hj]
    exact sum_congr rfl (fun i hi => sym i (mem_range.1 hi) j hj)
  have sx : ∑ i ∈ range n, x i = 0 := by
    have : ∑ i ∈ range n, ∑ j ∈ range n, L i j * (x j - ψ j) = 0 := by
      rw [sum_comm]
      refine sum_eq_zero (fun j hj => ?_)
      rw [← sum_mul, col j (mem_range.1 hj), zero_mul]
    rw [sum_congr rfl (fun i hi => hx' i (mem_range.1 hi)), sum_neg_distrib, ← mul_sum, neg_eq_zero] at this
    exact (mul_eq_zero.1 this).resolve_left hε.ne'
  refine ⟨sx, fun c => ?_, fun h => ?_⟩
  · have e : ∑ i ∈ range n, ∑ j ∈ range n, (x i - ψ i) * L i j * (x j - ψ j) = ∑ i ∈ range n, (x i - ψ i) * -(ε * x i) := by
      refine sum_congr rfl (fun i hi => ?_)
      rw [← hx' i (mem_range.1 hi), mul_sum]
      exact sum_congr rfl (fun j _ => by ring)
    have e2 : ∑ i ∈ range n, (x i - ψ i) * -(ε * x i) = ∑ i ∈ range n, ε * ((ψ i - c) * x i - x i ^ 2) + ε * c * ∑ i ∈ range n, x i := by
      rw [mul_sum, ← sum_add_distrib]
      exact sum_congr rfl (fun i _ => by ring)
    rw [e, e2, sx, mul_zero, add_zero, mul_sum]
    refine sum_le_sum (fun i _ => ?_)
    nlinarith [mul_nonneg hε.le (sq_nonneg ((ψ i - c) - 2 * x i))]
  · have z : ∀ i < n, x i = 0 := by
      intro i hi
      have := hx' i hi
      rw [sum_congr rfl (fun j hj => by rw [show x j - ψ j = x i - ψ i by have := h i hi j (mem_range.1 hj); linarith]), ← sum_mul, row i hi, zero_mul] at this
      have := this.symm
      rw [neg_eq_zero] at this
      exact (mul_eq_zero.1 this).resolve_left hε.ne'
    intro i hi j hj
    have := h i hi j hj
    rw [z i hi, z j hj] at this
    linarith

/-- **C91, recovery (partial).** If the heat that was solved for falls off, in each face, along the gradient of `φ`, of length one, then the result `x` of `computeDistanceRHS`
has sum zero, and the Dirichlet energy of `x - φ` is at most `1e-6 / 4` times the squared deviation of `φ` from any constant. It is equal to `φ` up to a constant
only if `φ` is constant: because of the shift of the Laplacian by `1e-6`, the distance is not recovered exactly. Missing for the full claim `x = φ + const`: exactness, which fails. -/
theorem C91_recover_partial (m : Mesh) (len : ℕ → ℝ) (nan : V2) (S : LinSolver ℝ) (hS : S.Exact) (tCoef : ℝ) (h0 : 0 ≤ tCoef) (hv : m.Valid) (ht : m.TriFaces) (hm : m.Metric len)
    (rhs : ℕ → ℝ) :
    ∃ x H L ind vec, m.computeDistanceRHS len S nan tCoef rhs = .ok x ∧ m.heatOp len tCoef = .ok H ∧ m.cotanLaplacian len = .ok L ∧ m.getVertexIndices = .ok ind ∧
      m.halfedgeVectorsInFace len nan = .ok vec ∧ ∀ heat : ℕ → ℝ, (∀ i < m.nV, ∑ j ∈ range m.nV, H i j * heat j = rhs i) →
      ∀ (φ : ℕ → ℝ) (g : ℕ → V2) (s : ℕ → ℝ), m.GradientOn vec φ g → (∀ f, m.fLive f → f < m.nFFill → (g f).norm = 1 ∧ 0 < s f) →
        m.GradientOn vec (fun v => heat (ind v)) (fun f => (g f).smul (-s f)) →
        ∑ i ∈ range m.nV, x i = 0 ∧
        (∀ (ψ : ℕ → ℝ) (c : ℝ), (∀ v, m.vLive v → ψ (ind v) = φ v) →
          ∑ i ∈ range m.nV, ∑ j ∈ range m.nV, (x i - ψ i) * L i j * (x j - ψ j) ≤ 1e-6 / 4 * ∑ i ∈ range m.nV, (ψ i - c) ^ 2) ∧
        ((∀ v w, m.vLive v → m.vLive w → x (ind v) - x (ind w) = φ v - φ w) → ∀ v w, m.vLive v → m.vLive w → φ v = φ w) := by
  obtain ⟨H, P, o1, o2, -, o3⟩ := C91_operators m len tCoef hv ht hm h0
  obtain ⟨div, L, ind, vec, d1, l1, i1, v1, -, d2⟩ := C91_divergence m len nan hv ht hm (S m.nV H rhs)
  obtain ⟨L', ind', l1', i1', sym, row, -⟩ := C65_cotan m len hv ht hm
  rw [l1] at l1'
  injection l1' with l1'
  subst l1'
  have hP : P = fun i j => L i j + 1e-6 * (if i = j then 1 else 0) := by
    simp only [poissonOp, l1, bind, Except.bind] at o2
    injection o2 with o2
    exact o2.symm
  obtain ⟨vs, hs, is, es, fs, R⟩ := hv.ranges
  have ri := R.iv.1
  rw [i1] at ri
  injection ri with ri
  subst ri
  have ex1 := hS m.nV H rhs (exists_solution (definite_kernel (fun u hu => (o3 u hu).1)) _)
  have ex2 := hS m.nV P div (exists_solution (definite_kernel (fun u hu => (o3 u hu).2)) _)
  refine ⟨S m.nV P div, H, L, number vs, vec, by simp only [computeDistanceRHS, o1, d1, o2, bind, Except.bind], o1, l1, i1, v1, fun heat hh φ g s hg hn hgh => ?_⟩
  have hu := definite_unique (fun u hu => (o3 u hu).1) ex1 hh
  have hgh' : m.GradientOn vec (fun v => S m.nV H rhs (number vs v)) (fun f => (g f).smul (-s f)) := by
    intro h hl hx
    rw [hgh h hl hx]
    simp only
    rw [hu _ (R.iv.2.1 _ (hv.vertex_live _ hl)), hu _ (R.iv.2.1 _ (hv.vertex_live _ (hv.next_live _ hl)))]
  have step : ∀ ψ : ℕ → ℝ, (∀ v, m.vLive v → ψ (number vs v) = φ v) → ∀ i < m.nV,
      ∑ j ∈ range m.nV, (L i j + 1e-6 * (if i = j then 1 else 0)) * S m.nV P div j = ∑ j ∈ range m.nV, L i j * ψ j := by
    intro ψ hψ i hi
    rw [← d2 φ ψ g s hg hn hgh' hψ i hi, ← ex2 i hi, hP]
  obtain ⟨ψ, hψ⟩ : ∃ ψ : ℕ → ℝ, ∀ v, m.vLive v → ψ (number vs v) = φ v := by
    refine ⟨fun i => if h : ∃ v, m.vLive v ∧ number vs v = i then φ h.choose else 0, fun v vl => ?_⟩
    have h : ∃ w, m.vLive w ∧ number vs w = number vs v := ⟨v, vl, rfl⟩
    simp only [dif_pos h]
    rw [R.iv.2.inj h.choose_spec.1 vl h.choose_spec.2]
  have base := shifted_solution (by norm_num) sym row (step ψ hψ)
  refine ⟨base.1, fun ψ' c hψ' => (shifted_solution (by norm_num) sym row (step ψ' hψ')).2.1 c, fun hd v w hv' hw => ?_⟩
  rw [← hψ v hv', ← hψ w hw]
  refine base.2.2 (fun i hi j hj => ?_) _ (R.iv.2.1 _ hv') _ (R.iv.2.1 _ hw)
  obtain ⟨a, al, rfl⟩ := R.iv.2.2.1 i hi
  obtain ⟨b, bl, rfl⟩ := R.iv.2.2.1 j hj
  rw [hψ a al, hψ b bl]
  exact hd a b al bl

end Mesh

/-- **C91, distances in a triangle.** For two points with the same sum of coordinates, `baryDist` is their Euclidean distance, for every layout of the triangle. -/
theorem C91_baryDist (A B C : V2) (b1 b2 : V3) (h : b1.x + b1.y + b1.z = b2.x + b2.y + b2.z) :
    baryDist b1 b2 ((B.sub A).norm, (C.sub B).norm, (A.sub C).norm) =
      ((((A.smul b2.x).add (B.smul b2.y)).add (C.smul b2.z)).sub (((A.smul b1.x).add (B.smul b1.y)).add (C.smul b1.z))).norm := by
  have n : ∀ u : V2, u.norm * u.norm = u.x * u.x + u.y * u.y := fun u => Real.mul_self_sqrt (add_nonneg (mul_self_nonneg _) (mul_self_nonneg _))
  unfold baryDist
  simp only [n]
  set D := ((((A.smul b2.x).add (B.smul b2.y)).add (C.smul b2.z)).sub (((A.smul b1.x).add (B.smul b1.y)).add (C.smul b1.z))) with hD
  have hz : b2.z = b1.x + b1.y + b1.z - b2.x - b2.y := by linarith
  have e : 0 + ((B.sub A).x * (B.sub A).x + (B.sub A).y * (B.sub A).y) * (b2.sub b1).x * (b2.sub b1).y +
      ((C.sub B).x * (C.sub B).x + (C.sub B).y * (C.sub B).y) * (b2.sub b1).y * (b2.sub b1).z +
      ((A.sub C).x * (A.sub C).x + (A.sub C).y * (A.sub C).y) * (b2.sub b1).z * (b2.sub b1).x = -(D.x * D.x + D.y * D.y) := by
    rw [hD]
    simp only [V2.sub, V2.add, V2.smul, V3.sub, hz]
    ring
  rw [e, if_neg (not_not.2 (by nlinarith [mul_self_nonneg D.x, mul_self_nonneg D.y])), neg_neg]
  rfl

namespace Mesh

theorem tri_of_faces {m : Mesh} (hv : m.Valid) (ht : m.TriFaces) : ∀ f, m.fLive f → f < m.nFFill → m.fIsTriangle f := by
  intro f h1 h2
  obtain ⟨l0, e0⟩ := hv.f_he f h1
  exact (ht _ l0 (face_not_ext hv (by rw [e0]; exact h2))).symm

/-- A vertex source: the shift is the value at the vertex, with weight one. -/
theorem sourceShift_vertex {m : Mesh} (len : ℕ → ℝ) (hv : m.Valid) (ht : m.TriFaces) (ind : ℕ → ℕ) (dist : ℕ → ℝ) {v : ℕ} (h : m.vLive v) :
    m.sourceShift len ind dist ((SPoint.vertex v).inSomeFace m) = .ok (dist (ind v), 1) := by
  obtain ⟨f, c, e, f1, f2, -, hi⟩ := C40_inSomeFace m hv (tri_of_faces hv ht) (.vertex v) h
  have hi := hi ℝ (fun w => dist (ind w))
  have hc : c = ⟨1, 0, 0⟩ ∨ c = ⟨0, 0, 1⟩ ∨ c = ⟨0, 1, 0⟩ := by
    simp only [SPoint.inSomeFace] at e
    split_ifs at e <;> injection e with _ e <;> rw [← e] <;> simp
  rw [e] at hi ⊢
  simp only [SPoint.interpolate, smul_eq_mul] at hi
  simp only [sourceShift, nav_tri hv ht (mem_faces.2 ⟨f1, f2⟩), bind, Except.bind]
  have z : ∀ (b : V3) l, baryDist b b l = 0 := by
    intro b l
    unfold baryDist
    simp [V3.sub]
  rcases hc with rfl | rfl | rfl <;> simp only [z] <;> simp only [one_mul, zero_mul, mul_zero, mul_one, add_zero, zero_add, sub_zero] at hi ⊢ <;> rw [hi]

theorem computeDistanceRHS_ok {m : Mesh} (len : ℕ → ℝ) (nan : V2) (S : LinSolver ℝ) (tCoef : ℝ) (hv : m.Valid) (ht : m.TriFaces) (hm : m.Metric len) (h0 : 0 ≤ tCoef) (rhs : ℕ → ℝ) :
    ∃ x, m.computeDistanceRHS len S nan tCoef rhs = .ok x := by
  obtain ⟨H, P, o1, o2, -⟩ := C91_operators m len tCoef hv ht hm h0
  obtain ⟨div, -, -, -, d1, -⟩ := C91_divergence m len nan hv ht hm (S m.nV H rhs)
  exact ⟨_, by simp only [computeDistanceRHS, o1, d1, o2, bind, Except.bind]; rfl⟩

/-- **C91, vertex sources.** On every triangle mesh, for every solver and every nonempty list of vertices, the distances are computed; their sum over the sources is zero.
With one source the distance there is zero. -/
theorem C91_source (m : Mesh) (len : ℕ → ℝ) (nan : V2) (S : LinSolver ℝ) (tCoef : ℝ) (hv : m.Valid) (ht : m.TriFaces) (hm : m.Metric len) (h0 : 0 ≤ tCoef)
    (sources : List ℕ) (hl : ∀ v ∈ sources, m.vLive v) (hn : sources ≠ []) :
    ∃ d, m.computeHeatDistance len S nan tCoef (sources.map SPoint.vertex) = .ok (some d) ∧ (sources.map d).sum = 0 ∧ ∀ v, sources = [v] → d v = 0 := by
  obtain ⟨vs, hs, is, es, fs, R⟩ := hv.ranges
  set rhs := accum (fun p : ℕ × ℝ => number vs p.1) (fun p => p.2) ((sources.map SPoint.vertex).flatMap fun p => m.sourceEntries (p.inSomeFace m)) with hr
  obtain ⟨x, hx⟩ := computeDistanceRHS_ok len nan S tCoef hv ht hm h0 rhs
  have mp : (sources.map SPoint.vertex).mapM (fun p => m.sourceShift len (number vs) x (p.inSomeFace m)) = .ok (sources.map fun v => (x (number vs v), (1 : ℝ))) := by
    have : ∀ l : List ℕ, (∀ v ∈ l, m.vLive v) → (l.map SPoint.vertex).mapM (fun p => m.sourceShift len (number vs) x (p.inSomeFace m)) = .ok (l.map fun v => (x (number vs v), (1 : ℝ))) := by
      intro l
      induction l with
      | nil => intro _; rfl
      | cons a l ih =>
        intro h
        rw [List.map_cons, List.mapM_cons, sourceShift_vertex len hv ht _ x (h a List.mem_cons_self), ih (fun v hv => h v (List.mem_cons_of_mem _ hv))]
        rfl
    exact this sources hl
  have w : ((sources.map fun v => (x (number vs v), (1 : ℝ))).map (·.2)).sum = sources.length := by simp [Function.comp_def]
  have w' : ((sources.map fun v => (x (number vs v), (1 : ℝ))).map (·.1)).sum = (sources.map fun v => x (number vs v)).sum := by simp [Function.comp_def]
  have pos : (0 : ℝ) < sources.length := by exact_mod_cast List.length_pos_of_ne_nil hn
  set c := (sources.map fun v => x (number vs v)).sum / (sources.length : ℝ) with hc
  have tot : (sources.map fun v => x (number vs v) + -c).sum = 0 := by
    have : ∀ l : List ℕ, (l.map fun v => x (number vs v) + -c).sum = (l.map fun v => x (number vs v)).sum + l.length * -c := by
      intro l
      induction l with
      | nil => simp
      | cons a l ih => simp only [List.map_cons, List.sum_cons, ih, List.length_cons]; push_cast; ring
    rw [this, hc]
    field_simp
    ring
  refine ⟨fun v => x (number vs v) + -c, ?_, tot, fun v hv' => ?_⟩
  · simp only [computeHeatDistance, R.iv.1, bind, Except.bind, ← hr, hx, mp, w, w']
    rw [if_neg pos.ne']
  · rw [hv'] at tot
    simpa using tot

/-- **C91, face sources.** With one source in a face, with coordinates of sum one, the distances are computed; interpolated at the source they give the mean of the
Euclidean distances from the source to the corners, weighted with the coordinates, for every layout of the face. -/
theorem C91_face_source (m : Mesh) (len : ℕ → ℝ) (nan : V2) (S : LinSolver ℝ) (tCoef : ℝ) (hv : m.Valid) (ht : m.TriFaces) (hm : m.Metric len) (h0 : 0 ≤ tCoef)
    (f : ℕ) (hf : m.fLive f) (hlt : f < m.nFFill) (c : V3) (hc : c.x + c.y + c.z = 1) :
    ∃ d, m.computeHeatDistance len S nan tCoef [.face f c] = .ok (some d) ∧
      ∀ A B C : V2, len (m.fHalfedge f / 2) = (B.sub A).norm → len (m.heNext (m.fHalfedge f) / 2) = (C.sub B).norm → len (m.heNext (m.heNext (m.fHalfedge f)) / 2) = (A.sub C).norm →
        ∀ P : V2, P = ((A.smul c.x).add (B.smul c.y)).add (C.smul c.z) →
        SPoint.interpolate m d (.face f c) = c.x * (A.sub P).norm + c.y * (B.sub P).norm + c.z * (C.sub P).norm := by
  obtain ⟨vs, hs, is, es, fs, R⟩ := hv.ranges
  obtain ⟨x, hx⟩ := computeDistanceRHS_ok len nan S tCoef hv ht hm h0
    (accum (fun p : ℕ × ℝ => number vs p.1) (fun p => p.2) ([SPoint.face f c].flatMap fun p => m.sourceEntries (p.inSomeFace m)))
  set l := (len (heEdge (m.fHalfedge f)), len (heEdge (m.heNext (m.fHalfedge f))), len (heEdge (m.heNext (m.heNext (m.fHalfedge f))))) with hl
  refine ⟨fun v => x (number vs v) + -(((x (number vs (m.heVertex (m.fHalfedge f))) - baryDist c ⟨1, 0, 0⟩ l) * c.x +
    (x (number vs (m.heVertex (m.heNext (m.fHalfedge f)))) - baryDist c ⟨0, 1, 0⟩ l) * c.y +
    (x (number vs (m.heVertex (m.heNext (m.heNext (m.fHalfedge f))))) - baryDist c ⟨0, 0, 1⟩ l) * c.z) / 1), ?_, ?_⟩
  · have e : SPoint.inSomeFace m (.face f c) = .face f c := rfl
    simp only [computeHeatDistance, R.iv.1, bind, Except.bind, hx, List.mapM_cons, List.mapM_nil, e, sourceShift, nav_tri hv ht (mem_faces.2 ⟨hf, hlt⟩), pure, Except.pure,
      List.map_cons, List.map_nil, List.sum_cons, List.sum_nil, add_zero, hc]
    rw [if_neg one_ne_zero]
  · intro A B C la lb lc P hP
    have a := C91_baryDist A B C c ⟨1, 0, 0⟩ (by simp only; linarith)
    have b := C91_baryDist A B C c ⟨0, 1, 0⟩ (by simp only; linarith)
    have d := C91_baryDist A B C c ⟨0, 0, 1⟩ (by simp only; linarith)
    rw [← hP] at a b d
    simp only [hl, heEdge, la, lb, lc, a, b, d, SPoint.interpolate, smul_eq_mul, div_one]
    have ea : ((A.smul 1).add (B.smul 0)).add (C.smul 0) = A := by simp [V2.add, V2.smul]
    have eb : ((A.smul 0).add (B.smul 1)).add (C.smul 0) = B := by simp [V2.add, V2.smul]
    have ec : ((A.smul 0).add (B.smul 0)).add (C.smul 1) = C := by simp [V2.add, V2.smul]
    rw [ea, eb, ec]
    have hz : c.z = 1 - c.x - c.y := by linarith
    rw [hz]
    ring

/-! ## Examples -/

theorem lone_tri : lone.TriFaces :=
  fun i hi hx => (by decide +kernel : ∀ i < 6, ¬ lone.ext i → lone.heNext (lone.heNext (lone.heNext i)) = i) i hi.1 hx

/-- The tetrahedron and the square cut into two triangles. -/
example : tetra.Valid ∧ tetra.TriFaces ∧ tetra.Metric (fun _ => 1) ∧ (∀ v ∈ [0, 3], tetra.vLive v) ∧ square.Valid ∧ square.TriFaces ∧ square.Metric (fun _ => 1) ∧
    square.fLive 0 ∧ 0 < square.nFFill ∧ (V3.mk (1 / 2) (1 / 4) (1 / 4)).x + (V3.mk (1 / 2) (1 / 4) (1 / 4)).y + (V3.mk (1 / 2) (1 / 4) (1 / 4)).z = 1 ∧
    ∃ S : LinSolver ℝ, S.Exact :=
  ⟨tetra_valid, tetra_tri, metric_one _, by decide +kernel, square_valid, square_tri, metric_one _, by decide +kernel, by decide +kernel, by norm_num, LinSolver.exists_exact ℝ⟩

/-- Two points of the triangle (0,0), (1,0), (0,1). -/
example : baryDist ⟨1, 0, 0⟩ ⟨0, 1 / 2, 1 / 2⟩ (((V2.mk 1 0).sub ⟨0, 0⟩).norm, ((V2.mk 0 1).sub ⟨1, 0⟩).norm, ((V2.mk 0 0).sub ⟨0, 1⟩).norm) = Real.sqrt (1 / 2) := by
  rw [C91_baryDist _ _ _ _ _ (by norm_num)]
  simp only [V2.norm, V2.sub, V2.add, V2.smul]
  norm_num

/-- On the equilateral triangle the distance to a line through a corner has a gradient of length one, and some right-hand side gives a heat that falls off along it: the distance
is not recovered exactly. -/
example : ∃ (S : LinSolver ℝ) (rhs x ind : ℕ → _) (φ : ℕ → ℝ), lone.computeDistanceRHS (fun _ => 1) S ⟨0, 0⟩ 1 rhs = .ok x ∧ lone.getVertexIndices = .ok ind ∧ φ 1 = 1 ∧ φ 0 = 0 ∧
    ¬ ∀ v w, lone.vLive v → lone.vLive w → x (ind v) - x (ind w) = φ v - φ w := by
  obtain ⟨S, hS⟩ := LinSolver.exists_exact ℝ
  obtain ⟨H, P, o1, -⟩ := C91_operators lone (fun _ => 1) 1 lone_valid lone_tri (metric_one _) zero_le_one
  obtain ⟨vs, hs, is, es, fs, R⟩ := lone_valid.ranges
  obtain ⟨vec, v1, v2, -, v4, -⟩ := halfedgeVectorsInFace_ok (nan := ⟨0, 0⟩) lone_valid lone_tri (metric_one lone) R
  set φ : ℕ → ℝ := fun v => if v = 1 then 1 else if v = 2 then 1 / 2 else 0 with hφ
  have live : ∀ i < 6, lone.heLive i := by decide +kernel
  have n0 : vec 0 = ⟨1, 0⟩ := v4 0 (mem_faces.2 (by decide +kernel))
  have cl := v2.close 0 (live 0 (by norm_num)) (by decide +kernel)
  rw [show lone.heNext 0 = 2 from rfl, show lone.heNext 2 = 4 from rfl, n0] at cl
  have n2 := v2.norm 2 (live 2 (by norm_num)) (by decide +kernel)
  have n4 := v2.norm 4 (live 4 (by norm_num)) (by decide +kernel)
  unfold V2.norm at n2 n4
  rw [Real.sqrt_eq_one] at n2 n4
  have cx := congrArg V2.x cl
  have cy := congrArg V2.y cl
  simp only [V2.add] at cx cy
  have y4 : (vec 4).y = -(vec 2).y := by linarith
  have x4 : (vec 4).x = -1 - (vec 2).x := by linarith
  rw [y4, x4] at n4
  have x2 : (vec 2).x = -1 / 2 := by linarith
  have grad : lone.GradientOn vec φ (fun _ => ⟨1, 0⟩) := by
    intro h hl hx
    have : h = 0 ∨ h = 2 ∨ h = 4 := (by decide +kernel : ∀ h < 6, ¬ lone.ext h → h = 0 ∨ h = 2 ∨ h = 4) h hl.1 hx
    rcases this with rfl | rfl | rfl
    · rw [n0, show lone.heVertex (lone.heNext 0) = 1 from rfl, show lone.heVertex 0 = 0 from rfl]; norm_num [V2.dot, hφ]
    · rw [show lone.heVertex (lone.heNext 2) = 2 from rfl, show lone.heVertex 2 = 1 from rfl]; norm_num [V2.dot, hφ, x2]
    · rw [show lone.heVertex (lone.heNext 4) = 0 from rfl, show lone.heVertex 4 = 2 from rfl]; norm_num [V2.dot, hφ, x2, x4]
  obtain ⟨heat, hheat⟩ : ∃ heat : ℕ → ℝ, ∀ v, lone.vLive v → heat (number vs v) = -φ v := by
    refine ⟨fun i => if h : ∃ v, lone.vLive v ∧ number vs v = i then -φ h.choose else 0, fun v vl => ?_⟩
    have h : ∃ w, lone.vLive w ∧ number vs w = number vs v := ⟨v, vl, rfl⟩
    simp only [dif_pos h]
    rw [R.iv.2.inj h.choose_spec.1 vl h.choose_spec.2]
  obtain ⟨x, H', L, ind, vec', k1, k2, -, k3, k4, k5⟩ := C91_recover_partial lone (fun _ => 1) ⟨0, 0⟩ S hS 1 zero_le_one lone_valid lone_tri (metric_one _)
    (fun i => ∑ j ∈ range lone.nV, H i j * heat j)
  rw [o1] at k2
  injection k2 with k2
  rw [v1] at k4
  injection k4 with k4
  have k3' := k3
  rw [R.iv.1] at k3'
  injection k3' with k3'
  subst k2 k4 k3'
  obtain ⟨-, -, k6⟩ := k5 heat (fun i _ => rfl) φ (fun _ => ⟨1, 0⟩) (fun _ => 1) grad (fun f _ _ => ⟨by simp [V2.norm], one_pos⟩) (by
    intro h hl hx
    have := grad h hl hx
    simp only
    rw [hheat _ (lone_valid.vertex_live _ hl), hheat _ (lone_valid.vertex_live _ (lone_valid.next_live _ hl))]
    simp only [V2.dot, V2.smul] at this ⊢
    linarith)
  refine ⟨S, _, x, number vs, φ, k1, k3, by simp [hφ], by simp [hφ], fun c => ?_⟩
  have := k6 c 1 0 (by decide +kernel) (by decide +kernel)
  norm_num [hφ] at this

end Mesh
end GC
