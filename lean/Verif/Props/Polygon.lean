import Verif.PolygonMesh

/-! # C85: the operators of de Goes et al. on polygon meshes -/

namespace GC
open Matrix
open Classical Finset

namespace Mesh
variable {m : Mesh} {pos : ℕ → V3} {vs hs is es fs : List ℕ}

theorem local_symm {n : ℕ} (p : Matrix (_root_.Fin n) (_root_.Fin 3) ℝ) (A : ℝ) (N : _root_.Fin 3 → ℝ) (lam : ℝ) (x y : _root_.Fin n → ℝ) :
    x ⬝ᵥ (Poly.laplacian p A N lam *ᵥ y) = y ⬝ᵥ (Poly.laplacian p A N lam *ᵥ x) := by
  rw [Poly.laplacian_form, Poly.laplacian_form, Poly.innerProduct_form, Poly.innerProduct_form, dotProduct_comm (_ *ᵥ _) (Poly.sharp p A N *ᵥ _),
    dotProduct_comm (_ *ᵥ _) (Poly.projection p A N *ᵥ _)]

/-- **C85, Laplacian.** On every mesh whose faces have area, for every positive stabilisation parameter, `polygonLaplacian` is symmetric, has zero row
sums and is positive semidefinite; a vector is in its kernel exactly if it takes equal values at the ends of each edge. -/
theorem C85_laplacian (m : Mesh) (pos : ℕ → V3) (lam : ℝ) (hv : m.Valid) (hl : 0 < lam) {A : ℕ → ℝ} (hA : m.faceAreasE pos = .ok A)
    (hp : ∀ f, m.fLive f → f < m.nFFill → 0 < A f) :
    ∃ L ind, m.polygonLaplacian pos lam = .ok L ∧ m.getVertexIndices = .ok ind ∧
      (∀ i < m.nV, ∀ j < m.nV, L i j = L j i) ∧ (∀ i < m.nV, ∑ j ∈ range m.nV, L i j = 0) ∧
      (∀ u : ℕ → ℝ, 0 ≤ ∑ i ∈ range m.nV, ∑ j ∈ range m.nV, u i * L i j * u j) ∧
      (∀ u : ℕ → ℝ, (∀ i < m.nV, ∑ j ∈ range m.nV, L i j * u j = 0) ↔
        ∀ h, m.heLive h → u (ind (m.heVertex h)) = u (ind (m.heVertex (m.heNext h)))) := by
  obtain ⟨vs, hs, is, es, fs, R⟩ := hv.ranges
  obtain ⟨F, hF⟩ := hv.faceLoops
  obtain ⟨A', a1, a2⟩ := faceAreasE_loops (pos := pos) hF R
  rw [hA] at a1
  injection a1 with a1
  subst a1
  obtain ⟨N, n1, -⟩ := faceNormalsE_loops (pos := pos) hF R
  obtain ⟨L, l1, l2⟩ := polygonLaplacian_form hv hF R hA n1 lam
  have hp : ∀ f ∈ m.faces, 0 < A f := fun f hf => hp f (mem_faces.1 hf).1 (mem_faces.1 hf).2
  have two : ∀ f ∈ m.faces, 2 ≤ ((F f).map m.heVertex).length := fun f hf => two_sides hF hf (by
    have := hp f hf; rw [a2 f hf] at this; linarith)
  have ends : ∀ u : ℕ → ℝ, (∀ f ∈ m.faces, ∀ h ∈ F f, u (number vs (m.heVertex (m.heNext h))) = u (number vs (m.heVertex h))) ↔
      ∀ h, m.heLive h → u (number vs (m.heVertex h)) = u (number vs (m.heVertex (m.heNext h))) := by
    intro u
    constructor
    · intro q h hh
      have key : ∀ h ∈ m.ints, u (number vs (m.heVertex (m.heNext h))) = u (number vs (m.heVertex h)) := fun h hh =>
        q (m.heFace h) (int_face hv hh) h ((hF.mem _ (int_face hv hh) h).2 ⟨hh, rfl⟩)
      by_cases hx : m.ext h
      · have := key (GC.twin h) (mem_ints.2 ⟨hv.twin_live h hh, hv.ext_twin hh hx⟩)
        rw [hv.vertex_next (hv.twin_live h hh), twin_twin] at this
        rw [this, hv.vertex_next hh]
      · exact (key h (mem_ints.2 ⟨hh, hx⟩)).symm
    · intro q f hf h hh
      exact (q h (mem_ints.1 ((hF.mem f hf h).1 hh).1).1).symm
  have loc := fun (f : ℕ) (hf : f ∈ m.faces) (u : ℕ → ℝ) => Poly.laplacian_pos (p := polyMatrix pos ((F f).map m.heVertex)) (N := (N f).toEigen) (two f hf)
    (hp f hf) hl (around (number vs) u ((F f).map m.heVertex))
  have zero : ∀ f ∈ m.faces, ∀ x y : ℕ → ℝ, (∀ h ∈ F f, y (number vs (m.heVertex (m.heNext h))) = y (number vs (m.heVertex h))) →
      around (number vs) x ((F f).map m.heVertex) ⬝ᵥ
        (Poly.laplacian (polyMatrix pos ((F f).map m.heVertex)) (A f) (N f).toEigen lam *ᵥ around (number vs) y ((F f).map m.heVertex)) = 0 := by
    intro f hf x y h
    rw [Poly.laplacian_form]
    have : Poly.derivative _ *ᵥ around (number vs) y ((F f).map m.heVertex) = 0 := by
      funext i
      rw [Poly.derivative_mulVec (two f hf), (around_const hF hf (number vs) y).2 h (Poly.cyc i) i, sub_self]; rfl
    rw [this, Matrix.mulVec_zero, dotProduct_zero]
  refine ⟨L, number vs, l1, R.iv.1, fun i hi j hj => ?_, fun i hi => ?_, fun u => ?_, fun u => ⟨fun h0 => ?_, fun h0 => ?_⟩⟩
  · rw [← pair_single L hi hj, ← pair_single L hj hi, l2, l2]
    exact sum_congr rfl (fun f _ => local_symm _ _ _ _ _ _)
  · have := pair_row L (k := m.nV) hi (fun _ => 1)
    simp only [mul_one] at this
    rw [← this]
    have h2 := l2 (fun a => if a = i then 1 else 0) (fun _ => 1)
    simp only [mul_one] at h2
    rw [h2]
    exact sum_eq_zero (fun f hf => zero f hf _ _ (fun _ _ => rfl))
  · rw [l2]; exact sum_nonneg (fun f hf => (loc f hf u).1)
  · have e : ∑ i ∈ range m.nV, ∑ j ∈ range m.nV, u i * L i j * u j = 0 := by
      refine sum_eq_zero (fun i hi => ?_)
      have := h0 i (mem_range.1 hi)
      simp only [mul_assoc]
      rw [← mul_sum, this, mul_zero]
    rw [l2] at e
    have e := (sum_eq_zero_iff_of_nonneg (fun f hf => (loc f hf u).1)).1 e
    refine (ends u).1 (fun f hf => ?_)
    exact (around_const hF hf (number vs) u).1 ((loc f hf u).2.1 (e f hf))
  · intro i hi
    rw [← pair_row L hi u, l2]
    exact sum_eq_zero (fun f hf => zero f hf _ _ ((ends u).2 h0 f hf))

/-! ## Triangle meshes -/

theorem shoelace_tri (hv : m.Valid) (ht : m.TriFaces) {f : ℕ} (hf : f ∈ m.faces) :
    m.shoelace pos [m.fHalfedge f, m.heNext (m.fHalfedge f), m.heNext (m.heNext (m.fHalfedge f))] = m.area2 pos (m.fHalfedge f) := by
  obtain ⟨q1, q2⟩ := mem_faces.1 hf
  obtain ⟨l0, e0⟩ := hv.f_he f q1
  have x0 : ¬ m.ext (m.fHalfedge f) := face_not_ext hv (by rw [e0]; exact q2)
  unfold shoelace
  simp only [List.foldl_cons, List.foldl_nil]
  rw [ht _ l0 x0]
  unfold area2
  simp only [V3.add, V3.cross, V3.sub]
  ext <;> simp only <;> ring

/-- **C85, triangle meshes.** On a triangle mesh without degenerate faces, `polygonLaplacian` is the cotangent Laplacian of the edge lengths, whatever the
stabilisation parameter. -/
theorem C85_cotan (m : Mesh) (pos : ℕ → V3) (lam : ℝ) (hv : m.Valid) (ht : m.TriFaces) (hn : m.NonDegenerate pos) :
    ∃ L len C, m.polygonLaplacian pos lam = .ok L ∧ m.edgeLengthsE pos = .ok len ∧ m.cotanLaplacian len = .ok C ∧
      ∀ i < m.nV, ∀ j < m.nV, L i j = C i j := by
  obtain ⟨vs, hs, is, es, fs, R⟩ := hv.ranges
  obtain ⟨F, hF⟩ := hv.faceLoops
  obtain ⟨A, a1, a2⟩ := faceAreasE_loops (pos := pos) hF R
  obtain ⟨N, n1, n2⟩ := faceNormalsE_loops (pos := pos) hF R
  obtain ⟨L, l1, l2⟩ := polygonLaplacian_form hv hF R a1 n1 lam
  obtain ⟨len, e1, -, e3⟩ := edgeLengthsE_ok hv ht hn R
  obtain ⟨C, c1, c2⟩ := cotanLaplacian_form (len := len) hv R
  refine ⟨L, len, C, l1, e1, c1, fun i hi j hj => ?_⟩
  rw [← pair_single L hi hj, ← pair_single C hi hj, l2, c2, ← sum_faces hv ht]
  generalize (fun a => if a = i then (1 : ℝ) else 0) = x
  generalize (fun a => if a = j then (1 : ℝ) else 0) = y
  refine sum_congr rfl (fun f hf => ?_)
  obtain ⟨q1, q2⟩ := mem_faces.1 hf
  obtain ⟨h0, e0⟩ := hv.f_he f q1
  have x0 : ¬ m.ext (m.fHalfedge f) := face_not_ext hv (by rw [e0]; exact q2)
  have i0 := mem_ints.2 ⟨h0, x0⟩
  have i1 := int_next hv i0
  have i2 := int_next hv i1
  have t := ht _ h0 x0
  have nav := nav_tri hv ht hf
  have fl : F f = [m.fHalfedge f, m.heNext (m.fHalfedge f), m.heNext (m.heNext (m.fHalfedge f))] := by
    have := hF.nav f hf
    rw [nav] at this
    injection this with this
    exact this.symm
  have deg : m.fDegree f = .ok 3 := by rw [hF.deg f hf, fl]; rfl
  obtain ⟨l, N', p1, p2, p3, -⟩ := C71_polygon_normal_partial m pos hv f q1 q2 (.inl deg)
  rw [hF.nav f hf] at p1
  injection p1 with p1
  rw [← p1] at p3
  rw [n2 f hf] at p2
  injection p2 with p2
  rw [← p2] at p3
  have ne : 0 < (m.shoelace pos (F f)).norm := by
    rw [fl, shoelace_tri hv ht hf]
    exact V3.norm_pos (hn _ h0 x0)
  have Apos : 0 < A f := by rw [a2 f hf]; linarith
  obtain ⟨k1, k2⟩ := normal_local hF hf (a2 f hf) p3 Apos
  have ar : (m.area2 pos (m.fHalfedge f)).norm = 2 * A f := by
    rw [a2 f hf, fl, shoelace_tri hv ht hf]; ring
  rw [← cot3 hv ht e3 i0, ← cot3 hv ht e3 i1, ← cot3 hv ht e3 i2, cot_area2 ht h0 x0, cot_area2 ht (mem_ints.1 i1).1 (mem_ints.1 i1).2,
    cot_area2 ht (mem_ints.1 i2).1 (mem_ints.1 i2).2, area2_next ht i1, area2_next ht i0, ar, t]
  rw [fl] at k2 ⊢
  refine (Poly.laplacian_tri (p := polyMatrix pos ([m.fHalfedge f, m.heNext (m.fHalfedge f), m.heNext (m.heNext (m.fHalfedge f))].map m.heVertex))
    Apos.ne' k1 k2 lam _ _).trans ?_
  have r0 : ∀ k, polyMatrix pos ([m.fHalfedge f, m.heNext (m.fHalfedge f), m.heNext (m.heNext (m.fHalfedge f))].map m.heVertex) k =
    (pos (([m.fHalfedge f, m.heNext (m.fHalfedge f), m.heNext (m.heNext (m.fHalfedge f))].map m.heVertex).get k)).toEigen := fun _ => rfl
  have g0 : ([m.fHalfedge f, m.heNext (m.fHalfedge f), m.heNext (m.heNext (m.fHalfedge f))].map m.heVertex).get (0 : _root_.Fin 3) = m.heVertex (m.fHalfedge f) := rfl
  have g1 : ([m.fHalfedge f, m.heNext (m.fHalfedge f), m.heNext (m.heNext (m.fHalfedge f))].map m.heVertex).get (1 : _root_.Fin 3) =
    m.heVertex (m.heNext (m.fHalfedge f)) := rfl
  have g2 : ([m.fHalfedge f, m.heNext (m.fHalfedge f), m.heNext (m.heNext (m.fHalfedge f))].map m.heVertex).get (2 : _root_.Fin 3) =
    m.heVertex (m.heNext (m.heNext (m.fHalfedge f))) := rfl
  simp only [r0, around, g0, g1, g2, diff, t, ← toEigen_sub, toEigen_dot]
  have := Apos.ne'
  field_simp
  simp only [V3.dot, V3.sub]
  ring

/-! ## Gradient and divergence -/

theorem around_linear {L : ℕ → List ℕ} (hv : m.Valid) (F : m.FaceLoops L) {f : ℕ} (hf : f ∈ m.faces) {ind : ℕ → ℕ} {u : ℕ → ℝ} {g : V3} {c : ℝ}
    (hu : ∀ h, m.heLive h → m.heFace h = f → u (ind (m.heVertex h)) = g.dot (pos (m.heVertex h)) + c) :
    around ind u ((L f).map m.heVertex) = fun i => g.toEigen ⬝ᵥ polyMatrix pos ((L f).map m.heVertex) i + c := by
  funext i
  obtain ⟨h, q1, q2⟩ := List.mem_map.1 (List.get_mem ((L f).map m.heVertex) i)
  obtain ⟨q3, q4⟩ := (F.mem f hf h).1 q1
  show u (ind _) = g.toEigen ⬝ᵥ (pos (((L f).map m.heVertex).get i)).toEigen + c
  rw [toEigen_dot, ← q2, hu h (mem_ints.1 q3).1 q4]

/-- **C85, gradient and divergence (partial).** The divergence matrix is the transposed gradient matrix times the areas of the faces. On a function that is
linear on the plane of a face of degree three or four, the gradient matrix gives minus the gradient of the function along the face. Full statement: it
gives the gradient, for every degree; the sign is wrong, and for degree five and more see `C85_pentagon`. -/
theorem C85_gradient_partial (m : Mesh) (pos : ℕ → V3) (hv : m.Valid) {A : ℕ → ℝ} (hA : m.faceAreasE pos = .ok A) :
    ∃ G D N vInd fInd, m.polygonGradientMatrix pos = .ok G ∧ m.polygonDivergenceMatrix pos = .ok D ∧ m.faceNormalsE pos = .ok N ∧
      m.getVertexIndices = .ok vInd ∧ m.getFaceIndices = .ok fInd ∧
      ∀ f, m.fLive f → f < m.nFFill → ∀ c : _root_.Fin 3,
        (∀ j < m.nV, D j (3 * fInd f + c.1) = G (3 * fInd f + c.1) j * A f) ∧
        (m.fDegree f = .ok 3 ∨ m.fDegree f = .ok 4 → 0 < A f → ∀ (u : ℕ → ℝ) (g : V3) (b : ℝ),
          (∀ h, m.heLive h → m.heFace h = f → u (vInd (m.heVertex h)) = g.dot (pos (m.heVertex h)) + b) →
          ∑ j ∈ range m.nV, G (3 * fInd f + c.1) j * u j = -(g.sub ((N f).smul ((N f).dot g))).toEigen c) := by
  obtain ⟨vs, hs, is, es, fs, R⟩ := hv.ranges
  obtain ⟨F, hF⟩ := hv.faceLoops
  obtain ⟨A', a1, a2⟩ := faceAreasE_loops (pos := pos) hF R
  rw [hA] at a1
  injection a1 with a1
  subst a1
  obtain ⟨N, n1, n2⟩ := faceNormalsE_loops (pos := pos) hF R
  obtain ⟨G, g1, g2⟩ := polygonGradientMatrix_form hv hF R hA n1
  obtain ⟨D, d1, d2⟩ := polygonDivergenceMatrix_form hv hF R hA n1
  refine ⟨G, D, N, number vs, number fs, g1, d1, n1, R.iv.1, R.if'.1, fun f q1 q2 c => ?_⟩
  have hf := mem_faces.2 ⟨q1, q2⟩
  have lt : 3 * number fs f + c.1 < 3 * m.nF := by
    have := R.if'.2.1 f ⟨q1, q2⟩
    have := c.2
    omega
  have row : ∀ y : ℕ → ℝ, ∑ j ∈ range m.nV, G (3 * number fs f + c.1) j * y j =
      (Poly.gradient (polyMatrix pos ((F f).map m.heVertex)) (A f) (N f).toEigen *ᵥ around (number vs) y ((F f).map m.heVertex)) c := by
    intro y
    rw [← pair_row G lt y, g2]
    exact sum_component R hf c _
  refine ⟨fun j hj => ?_, fun deg hp u g b hu => ?_⟩
  · rw [← pair_single D hj lt, d2 (fun i => if i = 3 * number fs f + c.1 then 1 else 0) (fun i => if i = j then 1 else 0)]
    have := row (fun i => if i = j then 1 else 0)
    simp only [mul_ite, mul_one, mul_zero, sum_ite_eq', mem_range, hj, if_true] at this
    rw [this]
    have e := sum_component R hf c (fun f c => A f * (Poly.gradient (polyMatrix pos ((F f).map m.heVertex)) (A f) (N f).toEigen *ᵥ
      around (number vs) (fun i => if i = j then 1 else 0) ((F f).map m.heVertex)) c)
    refine Eq.trans ?_ (e.trans (mul_comm _ _))
    exact sum_congr rfl (fun f _ => sum_congr rfl (fun c _ => by ring))
  · obtain ⟨l, N', p1, p2, p3, -⟩ := C71_polygon_normal_partial m pos hv f q1 q2 deg
    rw [hF.nav f hf] at p1
    injection p1 with p1
    rw [← p1] at p3
    rw [n2 f hf] at p2
    injection p2 with p2
    rw [← p2] at p3
    obtain ⟨k1, k2⟩ := normal_local hF hf (a2 f hf) p3 hp
    rw [row, around_linear hv hF hf hu, Poly.gradient_linear hp.ne' k1 k2, toEigen_sub, toEigen_smul, toEigen_dot]
    rfl

/-- **C85, linear functions (partial).** On planar faces of degree three and four the quadratic form of the Laplacian at a linear function is its Dirichlet
energy. Full statement: for planar faces of every degree; this is false, see `C85_pentagon`. -/
theorem C85_linear_partial (m : Mesh) (pos : ℕ → V3) (lam : ℝ) (hv : m.Valid) {A : ℕ → ℝ} (hA : m.faceAreasE pos = .ok A)
    (hd : ∀ f, m.fLive f → f < m.nFFill → 0 < A f ∧ (m.fDegree f = .ok 3 ∨ m.fDegree f = .ok 4)) {N : ℕ → V3} (hN : m.faceNormalsE pos = .ok N)
    (hpl : ∀ h, m.heLive h → ¬ m.ext h → (N (m.heFace h)).dot ((pos (m.heVertex (m.heNext h))).sub (pos (m.heVertex h))) = 0) :
    ∃ L ind, m.polygonLaplacian pos lam = .ok L ∧ m.getVertexIndices = .ok ind ∧ ∀ (u : ℕ → ℝ) (g : V3) (b : ℝ),
      (∀ v, m.vLive v → u (ind v) = g.dot (pos v) + b) →
      ∑ i ∈ range m.nV, ∑ j ∈ range m.nV, u i * L i j * u j =
        ∑ f ∈ range m.nFFill with m.fLive f, A f * (g.sub ((N f).smul ((N f).dot g))).dot (g.sub ((N f).smul ((N f).dot g))) := by
  obtain ⟨vs, hs, is, es, fs, R⟩ := hv.ranges
  obtain ⟨F, hF⟩ := hv.faceLoops
  obtain ⟨A', a1, a2⟩ := faceAreasE_loops (pos := pos) hF R
  rw [hA] at a1
  injection a1 with a1
  subst a1
  obtain ⟨N', n1, n2⟩ := faceNormalsE_loops (pos := pos) hF R
  rw [hN] at n1
  injection n1 with n1
  subst n1
  obtain ⟨L, l1, l2⟩ := polygonLaplacian_form hv hF R hA hN lam
  refine ⟨L, number vs, l1, R.iv.1, fun u g b hu => ?_⟩
  rw [l2]
  refine sum_congr rfl (fun f hf => ?_)
  obtain ⟨q1, q2⟩ := mem_faces.1 hf
  obtain ⟨hp, deg⟩ := hd f q1 q2
  obtain ⟨l, N', p1, p2, p3, -⟩ := C71_polygon_normal_partial m pos hv f q1 q2 deg
  rw [hF.nav f hf] at p1
  injection p1 with p1
  rw [← p1] at p3
  rw [n2 f hf] at p2
  injection p2 with p2
  rw [← p2] at p3
  obtain ⟨k1, k2⟩ := normal_local hF hf (a2 f hf) p3 hp
  have pl : ∀ i j, (N f).toEigen ⬝ᵥ polyMatrix pos ((F f).map m.heVertex) i = (N f).toEigen ⬝ᵥ polyMatrix pos ((F f).map m.heVertex) j := by
    intro i j
    refine Poly.cyc_const (φ := fun i => (N f).toEigen ⬝ᵥ polyMatrix pos ((F f).map m.heVertex) i) (fun i => ?_) i j
    show (N f).toEigen ⬝ᵥ (pos (((F f).map m.heVertex).get (Poly.cyc i))).toEigen = (N f).toEigen ⬝ᵥ (pos (((F f).map m.heVertex).get i)).toEigen
    obtain ⟨a, b⟩ := get_cyc hF hf i
    obtain ⟨c, d⟩ := (hF.mem f hf _).1 (List.get_mem (F f) (i.cast (List.length_map _)))
    have := hpl _ (mem_ints.1 c).1 (mem_ints.1 c).2
    rw [d, ← toEigen_dot, toEigen_sub, dotProduct_sub] at this
    rw [a, b]
    linarith
  have al : around (number vs) u ((F f).map m.heVertex) = fun i => g.toEigen ⬝ᵥ polyMatrix pos ((F f).map m.heVertex) i + b :=
    around_linear hv hF hf (fun h a _ => hu _ (hv.vertex_live _ a))
  rw [al, Poly.laplacian_linear hp.ne' k1 k2 pl, Poly.gradient_linear hp.ne' k1 k2, neg_dotProduct, toEigen_dot, ← toEigen_smul, ← toEigen_sub, toEigen_dot]
  ring

/-! ## Exterior calculus -/

/-- **C85, exterior calculus.** On every mesh whose faces have area: `d1 * d0 = 0`; `hodge0` is diagonal and adds up to the area of the mesh; `hodge1` is symmetric, and positive
definite on the halfedges of the faces; `hodge2` holds the inverse areas; and `d0ᵀ * hodge1 * d0` is `polygonLaplacian`. -/
theorem C85_dec (m : Mesh) (pos : ℕ → V3) (lam : ℝ) (hv : m.Valid) (hl : 0 < lam) {A : ℕ → ℝ} (hA : m.faceAreasE pos = .ok A)
    (hp : ∀ f, m.fLive f → f < m.nFFill → 0 < A f) :
    ∃ o L hInd fInd, m.polygonDEC pos lam = .ok o ∧ m.polygonLaplacian pos lam = .ok L ∧ m.getHalfedgeIndices = .ok hInd ∧ m.getFaceIndices = .ok fInd ∧
      (∀ k < m.nF, ∀ i < m.nV, ∑ a ∈ range m.nHe, o.d1 k a * o.d0 a i = 0) ∧
      (∀ i j, i ≠ j → o.hodge0 i j = 0) ∧ ∑ i ∈ range m.nV, o.hodge0 i i = ∑ f ∈ range m.nFFill with m.fLive f, A f ∧
      (∀ a < m.nHe, ∀ b < m.nHe, o.hodge1 a b = o.hodge1 b a) ∧
      (∀ x : ℕ → ℝ, 0 ≤ ∑ a ∈ range m.nHe, ∑ b ∈ range m.nHe, x a * o.hodge1 a b * x b) ∧
      (∀ x : ℕ → ℝ, ∑ a ∈ range m.nHe, ∑ b ∈ range m.nHe, x a * o.hodge1 a b * x b = 0 → ∀ h, m.heLive h → ¬ m.ext h → x (hInd h) = 0) ∧
      (∀ f, m.fLive f → f < m.nFFill → o.hodge2 (fInd f) (fInd f) = 1 / A f) ∧
      (∀ i < m.nV, ∀ j < m.nV, ∑ a ∈ range m.nHe, ∑ b ∈ range m.nHe, o.d0 a i * o.hodge1 a b * o.d0 b j = L i j) := by
  obtain ⟨vs, hs, is, es, fs, R⟩ := hv.ranges
  obtain ⟨F, hF⟩ := hv.faceLoops
  obtain ⟨A', a1, a2⟩ := faceAreasE_loops (pos := pos) hF R
  rw [hA] at a1
  injection a1 with a1
  subst a1
  obtain ⟨N, n1, -⟩ := faceNormalsE_loops (pos := pos) hF R
  obtain ⟨L, l1, l2⟩ := polygonLaplacian_form hv hF R hA n1 lam
  obtain ⟨-, ⟨hInd, e1, e2⟩, -⟩ := C62_indices m hv
  obtain ⟨o, o1, O⟩ := polygonDEC_forms hv hF R hA n1 lam e1 e2
  have hp : ∀ f ∈ m.faces, 0 < A f := fun f hf => hp f (mem_faces.1 hf).1 (mem_faces.1 hf).2
  have two : ∀ f ∈ m.faces, 2 ≤ ((F f).map m.heVertex).length := fun f hf => two_sides hF hf (by
    have := hp f hf; rw [a2 f hf] at this; linarith)
  have inj : ∀ h ∈ m.ints, ∀ h' ∈ m.ints, hInd h = hInd h' → h = h' := fun h a h' b e => e2.inj (mem_ints.1 a).1 (mem_ints.1 b).1 e
  have bh : ∀ h ∈ m.ints, hInd h < m.nHe := fun h hh => e2.1 h (mem_ints.1 hh).1
  have d0 : ∀ i < m.nV, ∀ h ∈ m.ints, o.d0 (hInd h) i = m.diff (number vs) (fun j => if j = i then 1 else 0) h := by
    intro i hi h hh
    rw [← pair_single o.d0 (bh h hh) hi, O.d0 (fun a => if a = hInd h then 1 else 0) (fun j => if j = i then 1 else 0), sum_eq_single h]
    · rw [if_pos rfl, one_mul]
    · intro h' a b
      rw [if_neg (fun e => b (inj _ a _ hh e)), zero_mul]
    · intro q; exact absurd hh q
  have loc := fun (f : ℕ) (hf : f ∈ m.faces) (x : ℕ → ℝ) => Poly.innerProduct_pos (p := polyMatrix pos ((F f).map m.heVertex)) (N := (N f).toEigen)
    (hp f hf) hl (m.aroundHe hInd x (F f))
  refine ⟨o, L, hInd, number fs, o1, l1, e1, R.if'.1, fun k hk i hi => ?_, O.h0', ?_, fun a ha b hb => ?_, fun x => ?_, fun x hx h q1 q2 => ?_,
    fun f q1 q2 => O.h2 f (mem_faces.2 ⟨q1, q2⟩), fun i hi j hj => ?_⟩
  · rw [← pair_row o.d1 hk (fun a => o.d0 a i), O.d1 (fun a => if a = k then 1 else 0) (fun a => o.d0 a i)]
    obtain ⟨f, q, rfl⟩ := R.if'.2.2.1 k hk
    have hf := mem_faces.2 q
    have e : ∑ h ∈ m.ints, (if number fs (m.heFace h) = number fs f then (1 : ℝ) else 0) * o.d0 (hInd h) i =
        ∑ h ∈ ({h ∈ m.ints | m.heFace h = f} : Finset ℕ), m.diff (number vs) (fun j => if j = i then 1 else 0) h := by
      rw [sum_filter]
      refine sum_congr rfl (fun h hh => ?_)
      rw [d0 i hi h hh]
      by_cases c : m.heFace h = f
      · rw [if_pos c, c, if_pos rfl, one_mul]
      · rw [if_neg c, if_neg (fun e => c (R.if'.2.inj (mem_faces.1 (int_face hv hh)) q e)), zero_mul]
    rw [e, ← sum_of_nodup (hF.nodup f hf) (fun i => by rw [hF.mem f hf, mem_filter])]
    unfold diff
    rw [← sum_sides hF hf (fun a b => (if number vs b = i then (1 : ℝ) else 0) - (if number vs a = i then 1 else 0)), sum_sub_distrib,
      Poly.sum_cyc (fun k => if number vs (((F f).map m.heVertex).get k) = i then (1 : ℝ) else 0), sub_self]
  · rw [O.h0]
    refine sum_congr rfl (fun f hf => ?_)
    have := two f hf
    rw [List.length_map] at this
    have : ((F f).length : ℝ) ≠ 0 := by
      have : (F f).length ≠ 0 := by omega
      exact_mod_cast this
    field_simp
  · rw [← pair_single o.hodge1 ha hb, ← pair_single o.hodge1 hb ha, O.h1, O.h1]
    refine sum_congr rfl (fun f _ => ?_)
    rw [Poly.innerProduct_form, Poly.innerProduct_form, dotProduct_comm (_ *ᵥ _) (Poly.sharp _ _ _ *ᵥ _), dotProduct_comm (_ *ᵥ _) (Poly.projection _ _ _ *ᵥ _)]
  · rw [O.h1]; exact sum_nonneg (fun f hf => (loc f hf x).1)
  · rw [O.h1] at hx
    have hx := (sum_eq_zero_iff_of_nonneg (fun f hf => (loc f hf x).1)).1 hx
    have hh := mem_ints.2 ⟨q1, q2⟩
    have hf := int_face hv hh
    have z := (loc _ hf x).2 (hx _ hf)
    obtain ⟨k, hk, ek⟩ := List.getElem_of_mem ((hF.mem _ hf h).2 ⟨hh, rfl⟩)
    have hk' : k < ((F (m.heFace h)).map m.heVertex).length := by rwa [List.length_map]
    have := congrFun z ⟨k, hk'⟩
    unfold aroundHe at this
    rw [getD_lt hk, ek] at this
    exact this
  · rw [O.h1 (fun a => o.d0 a i) (fun b => o.d0 b j), ← pair_single L hi hj, l2]
    refine sum_congr rfl (fun f hf => ?_)
    rw [aroundHe_diff hF hf (two f hf) (d0 i hi), aroundHe_diff hF hf (two f hf) (d0 j hj), Poly.laplacian_form]

/-! ## Witnesses -/

theorem Poly.sharp_neg {n : ℕ} {p : Matrix (_root_.Fin n) (_root_.Fin 3) ℝ} {A : ℝ} {N : _root_.Fin 3 → ℝ} : Poly.sharp p A (-N) = -Poly.sharp p A N := by
  have e : Poly.bracket (-N) = -Poly.bracket N := by
    unfold Poly.bracket
    ext i j
    fin_cases i <;> fin_cases j <;> simp
  unfold Poly.sharp
  rw [e, smul_neg, Matrix.neg_mul]

/-- The energy of a linear function on a planar polygon whose normal points the wrong way. -/
theorem Poly.laplacian_flipped {n : ℕ} {p : Matrix (_root_.Fin n) (_root_.Fin 3) ℝ} {A : ℝ} {N : _root_.Fin 3 → ℝ} {lam : ℝ} (hA : A ≠ 0) (hN : N ⬝ᵥ N = 1)
    (hv : Poly.vecArea p = -(A • N)) (pl : ∀ i j, N ⬝ᵥ p i = N ⬝ᵥ p j) (g : _root_.Fin 3 → ℝ) (hg : N ⬝ᵥ g = 0) :
    (fun i => g ⬝ᵥ p i) ⬝ᵥ (Poly.laplacian p A N lam *ᵥ (fun i => g ⬝ᵥ p i)) = A * (g ⬝ᵥ g) + lam * ∑ i, (2 * (g ⬝ᵥ (p (Poly.cyc i) - p i))) ^ 2 := by
  have h0 : Poly.vecArea p ≠ 0 := by
    rw [hv, ← smul_neg]
    intro h
    rcases smul_eq_zero.1 h with h | h
    · exact hA h
    · rw [neg_eq_zero.1 h] at hN; simp at hN
  have h2 := Poly.two_le_of_area h0
  have e := Poly.gradient_linear (N := -N) hA (by rw [neg_dotProduct_neg, hN]) (by rw [hv, smul_neg]) g 0
  simp only [add_zero] at e
  rw [Poly.gradient_eq h2, Poly.sharp_neg, Matrix.neg_mul, neg_neg, neg_dotProduct, hg, neg_zero, zero_smul, sub_zero, ← Matrix.mulVec_mulVec] at e
  have pr : Poly.projection p A N *ᵥ (Poly.derivative n *ᵥ (fun i => g ⬝ᵥ p i)) = fun i => 2 * (g ⬝ᵥ (p (Poly.cyc i) - p i)) := by
    funext i
    rw [Poly.projection_mulVec, e, Pi.sub_apply, Poly.derivative_mulVec h2, Poly.flat_mulVec h2, dotProduct_neg N, hg, neg_zero, zero_smul, sub_zero,
      dotProduct_neg, dotProduct_comm _ g, dotProduct_sub]
    ring
  rw [Poly.laplacian_form, Poly.innerProduct_form, e, pr, neg_dotProduct_neg]
  congr 2
  exact sum_congr rfl (fun i _ => by ring)

theorem faces_single (h : m.nFFill = 1) (h0 : m.fLive 0) : m.faces = {0} := by
  ext f
  rw [mem_faces, mem_singleton]
  constructor
  · rintro ⟨-, h'⟩; omega
  · rintro rfl; exact ⟨h0, by omega⟩

/-- **C85 is false for linear functions on pentagons.** On the notched planar pentagon, whose area is 5/2, the normal points the wrong way (C71), and the
quadratic form of the Laplacian at the function `x`, whose Dirichlet energy is 5/2, is 5/2 + 136 λ. -/
theorem C85_pentagon (lam : ℝ) : ∃ L ind A, pentagon.Valid ∧ pentagon.polygonLaplacian notchPos lam = .ok L ∧ pentagon.getVertexIndices = .ok ind ∧
    pentagon.faceAreasE notchPos = .ok A ∧ A 0 = 5 / 2 ∧ ∀ u : ℕ → ℝ, (∀ v, pentagon.vLive v → u (ind v) = (notchPos v).x) →
      ∑ i ∈ range pentagon.nV, ∑ j ∈ range pentagon.nV, u i * L i j * u j = 5 / 2 + 136 * lam := by
  obtain ⟨hv, c1, c2, c3⟩ := C71_pentagon
  obtain ⟨vs, hs, is, es, fs, R⟩ := hv.ranges
  obtain ⟨F, hF⟩ := hv.faceLoops
  obtain ⟨A, a1, a2⟩ := faceAreasE_loops (pos := notchPos) hF R
  obtain ⟨N, n1, n2⟩ := faceNormalsE_loops (pos := notchPos) hF R
  obtain ⟨L, l1, l2⟩ := polygonLaplacian_form hv hF R a1 n1 lam
  have hfs : pentagon.faces = {0} := faces_single rfl (by decide +kernel)
  have hf : (0 : ℕ) ∈ pentagon.faces := by rw [hfs]; exact mem_singleton_self _
  have fl : F 0 = [0, 2, 4, 6, 8] := by
    have := hF.nav 0 hf
    rw [c1] at this
    injection this with this
    exact this.symm
  have eA : A 0 = 5 / 2 := by
    rw [a2 0 hf, fl, c2]
    have : V3.norm ⟨0, 0, 5⟩ = 5 := by
      unfold V3.norm
      rw [show (0 : ℝ) * 0 + 0 * 0 + 5 * 5 = 5 ^ 2 by norm_num, Real.sqrt_sq (by norm_num)]
    rw [this]; norm_num
  have eN : N 0 = ⟨0, 0, -1⟩ := by
    have := n2 0 hf
    rw [c3] at this
    injection this with this
    exact this.symm
  have va := vecArea_poly (pos := notchPos) hF hf
  rw [fl, c2] at va
  refine ⟨L, number vs, A, hv, l1, R.iv.1, a1, eA, fun u hu => ?_⟩
  have al : around (number vs) u ((F 0).map pentagon.heVertex) = fun i => (V3.toEigen ⟨1, 0, 0⟩) ⬝ᵥ polyMatrix notchPos ((F 0).map pentagon.heVertex) i + 0 :=
    around_linear hv hF hf (g := ⟨1, 0, 0⟩) (c := 0) (fun h a _ => by rw [hu _ (hv.vertex_live _ a)]; simp [V3.dot])
  rw [l2, hfs, sum_singleton, al, eA, eN]
  simp only [add_zero]
  rw [fl]
  have pz : ∀ i, polyMatrix notchPos ([0, 2, 4, 6, 8].map pentagon.heVertex) i = ![(notchPos (([0, 2, 4, 6, 8].map pentagon.heVertex).get i)).x,
    (notchPos (([0, 2, 4, 6, 8].map pentagon.heVertex).get i)).y, (notchPos (([0, 2, 4, 6, 8].map pentagon.heVertex).get i)).z] := fun _ => rfl
  have z0 : ∀ v, (notchPos v).z = 0 := by
    intro v; unfold notchPos; split <;> rfl
  rw [Poly.laplacian_flipped (by norm_num) _ _ _ _ _]
  · have hs : ∀ q : _root_.Fin ([0, 2, 4, 6, 8].map pentagon.heVertex).length → ℝ, ∑ i, q i = ∑ i : _root_.Fin 5, q i := fun _ => rfl
    rw [hs]
    have dx : ∀ i j, (V3.toEigen ⟨1, 0, 0⟩) ⬝ᵥ (polyMatrix notchPos ([0, 2, 4, 6, 8].map pentagon.heVertex) i -
        polyMatrix notchPos ([0, 2, 4, 6, 8].map pentagon.heVertex) j) = (notchPos (([0, 2, 4, 6, 8].map pentagon.heVertex).get i)).x -
          (notchPos (([0, 2, 4, 6, 8].map pentagon.heVertex).get j)).x := by
      intro i j
      simp [V3.toEigen, dotProduct, Fin.sum_univ_three, pz]
    simp only [dx]
    rw [Fin.sum_univ_five]
    have c0 : Poly.cyc (0 : _root_.Fin 5) = 1 := rfl
    have c1 : Poly.cyc (1 : _root_.Fin 5) = 2 := rfl
    have c2 : Poly.cyc (2 : _root_.Fin 5) = 3 := rfl
    have c3 : Poly.cyc (3 : _root_.Fin 5) = 4 := rfl
    have c4 : Poly.cyc (4 : _root_.Fin 5) = 0 := rfl
    have x0 : (notchPos (([0, 2, 4, 6, 8].map pentagon.heVertex).get (0 : _root_.Fin 5))).x = 4 := rfl
    have x1 : (notchPos (([0, 2, 4, 6, 8].map pentagon.heVertex).get (1 : _root_.Fin 5))).x = 2 := rfl
    have x3 : (notchPos (([0, 2, 4, 6, 8].map pentagon.heVertex).get (3 : _root_.Fin 5))).x = 1 := rfl
    have x4 : (notchPos (([0, 2, 4, 6, 8].map pentagon.heVertex).get (4 : _root_.Fin 5))).x = 0 := rfl
    have gg : (V3.toEigen ⟨1, 0, 0⟩) ⬝ᵥ (V3.toEigen ⟨1, 0, 0⟩) = 1 := by simp [V3.toEigen, dotProduct, Fin.sum_univ_three]
    rw [gg]
    erw [c0, c1, c2, c3, c4, x0, x1, x3, x4]
    ring
  · simp [V3.toEigen, dotProduct, Fin.sum_univ_three]
  · rw [va, ← smul_neg]
    funext k
    fin_cases k <;> simp [V3.toEigen] <;> norm_num
  · intro i j
    simp [V3.toEigen, dotProduct, Fin.sum_univ_three, pz, z0]
  · simp [V3.toEigen, dotProduct, Fin.sum_univ_three]

/-- One triangle. -/
def lone : Mesh := ofLists [2, 5, 4, 1, 0, 3] [0, 1, 1, 2, 2, 0] [0, 1, 0, 1, 0, 1] [0, 2, 4] [0, 1] 1

theorem lone_valid : lone.Valid := valid_of_check (by decide +kernel)

/-- A right triangle. -/
def lonePos : ℕ → V3
  | 1 => ⟨1, 0, 0⟩
  | 2 => ⟨0, 1, 0⟩
  | _ => ⟨0, 0, 0⟩

/-- The unit square. -/
def unitPos : ℕ → V3
  | 1 => ⟨1, 0, 0⟩
  | 2 => ⟨1, 1, 0⟩
  | 3 => ⟨0, 1, 0⟩
  | _ => ⟨0, 0, 0⟩

theorem flat_single {l : List ℕ} {c : ℝ} (hc : 0 < c) (hv : m.Valid) (h1 : m.nFFill = 1) (h0 : m.fLive 0) (hl : m.navFaceHalfedges 0 = .ok l)
    (hs : m.shoelace pos l = ⟨0, 0, c⟩) (hd : m.fDegree 0 = .ok 3 ∨ m.fDegree 0 = .ok 4) :
    ∃ A N, m.faceAreasE pos = .ok A ∧ m.faceNormalsE pos = .ok N ∧ A 0 = c / 2 ∧ N 0 = ⟨0, 0, 1⟩ := by
  obtain ⟨vs, hs', is, es, fs, R⟩ := hv.ranges
  obtain ⟨F, hF⟩ := hv.faceLoops
  obtain ⟨A, a1, a2⟩ := faceAreasE_loops (pos := pos) hF R
  obtain ⟨N, n1, n2⟩ := faceNormalsE_loops (pos := pos) hF R
  have hf : (0 : ℕ) ∈ m.faces := by rw [faces_single h1 h0]; exact mem_singleton_self _
  have fl := hF.nav 0 hf
  rw [hl] at fl
  injection fl with fl
  have nm : V3.norm ⟨0, 0, c⟩ = c := by
    unfold V3.norm
    rw [show (0 : ℝ) * 0 + 0 * 0 + c * c = c ^ 2 by ring, Real.sqrt_sq hc.le]
  obtain ⟨l', N', p1, p2, p3, -⟩ := C71_polygon_normal_partial m pos hv 0 h0 (by omega) hd
  rw [hl] at p1
  injection p1 with p1
  rw [n2 0 hf] at p2
  injection p2 with p2
  rw [← p1, hs, nm, ← p2] at p3
  refine ⟨A, N, a1, n1, by rw [a2 0 hf, ← fl, hs, nm]; norm_num; ring, ?_⟩
  have x := congrArg V3.x p3
  have y := congrArg V3.y p3
  have z := congrArg V3.z p3
  simp only [V3.smul] at x y z
  ext
  · simpa [hc.ne'] using x.symm
  · simpa [hc.ne'] using y.symm
  · have : c * (N 0).z = c * 1 := by linarith
    exact mul_left_cancel₀ hc.ne' this

theorem lone_geometry : ∃ A N, lone.faceAreasE lonePos = .ok A ∧ lone.faceNormalsE lonePos = .ok N ∧ A 0 = 1 / 2 ∧ N 0 = ⟨0, 0, 1⟩ :=
  flat_single one_pos lone_valid rfl (by decide +kernel) (l := [0, 2, 4]) rfl
    (by unfold shoelace; simp only [List.foldl_cons, List.foldl_nil]
        simp [lone, ofLists, lonePos, V3.add, V3.cross]) (.inl rfl)

theorem quad_geometry : ∃ A N, quad.faceAreasE unitPos = .ok A ∧ quad.faceNormalsE unitPos = .ok N ∧ A 0 = 1 ∧ N 0 = ⟨0, 0, 1⟩ := by
  have := flat_single two_pos quad_valid rfl (by decide +kernel) (l := [0, 2, 4, 6]) rfl (pos := unitPos)
    (by unfold shoelace; simp only [List.foldl_cons, List.foldl_nil]
        simp [quad, ofLists, unitPos, V3.add, V3.cross]; norm_num) (.inr rfl)
  simpa using this

theorem innerProduct_right (lam : ℝ) : ![1, 0, 0] ⬝ᵥ (Poly.innerProduct (n := 3) (Matrix.of ![![0, 0, 0], ![1, 0, 0], ![0, 1, 0]]) (1 / 2) ![0, 0, 1] lam *ᵥ ![0, 1, 0]) =
    -1 / 18 + lam / 3 := by
  rw [Poly.innerProduct_form]
  have c0 : Poly.cyc (0 : _root_.Fin 3) = 1 := rfl
  have c1 : Poly.cyc (1 : _root_.Fin 3) = 2 := rfl
  have c2 : Poly.cyc (2 : _root_.Fin 3) = 0 := rfl
  have s1 : Poly.sharp (n := 3) (Matrix.of ![![0, 0, 0], ![1, 0, 0], ![0, 1, 0]]) (1 / 2) ![0, 0, 1] *ᵥ ![1, 0, 0] = ![2 / 3, 1 / 3, 0] := by
    rw [Poly.sharp_mulVec (by norm_num), Fin.sum_univ_three]
    unfold Poly.arm Poly.centroid
    rw [c0, c1, c2]
    funext k
    fin_cases k <;> simp [cross_apply, Fin.sum_univ_three] <;> norm_num
  have s2 : Poly.sharp (n := 3) (Matrix.of ![![0, 0, 0], ![1, 0, 0], ![0, 1, 0]]) (1 / 2) ![0, 0, 1] *ᵥ ![0, 1, 0] = ![-1 / 3, 1 / 3, 0] := by
    rw [Poly.sharp_mulVec (by norm_num), Fin.sum_univ_three]
    unfold Poly.arm Poly.centroid
    rw [c0, c1, c2]
    funext k
    fin_cases k <;> simp [cross_apply, Fin.sum_univ_three] <;> norm_num
  have p1 : Poly.projection (n := 3) (Matrix.of ![![0, 0, 0], ![1, 0, 0], ![0, 1, 0]]) (1 / 2) ![0, 0, 1] *ᵥ ![1, 0, 0] = ![1 / 3, 1 / 3, 1 / 3] := by
    rw [Poly.projection_mulVec, s1]
    funext k
    rw [Pi.sub_apply, Poly.flat_mulVec (by norm_num)]
    fin_cases k <;> simp [c0, c1, c2, dotProduct, Fin.sum_univ_three] <;> norm_num
  have p2 : Poly.projection (n := 3) (Matrix.of ![![0, 0, 0], ![1, 0, 0], ![0, 1, 0]]) (1 / 2) ![0, 0, 1] *ᵥ ![0, 1, 0] = ![1 / 3, 1 / 3, 1 / 3] := by
    rw [Poly.projection_mulVec, s2]
    funext k
    rw [Pi.sub_apply, Poly.flat_mulVec (by norm_num)]
    fin_cases k <;> simp [c0, c1, c2, dotProduct, Fin.sum_univ_three] <;> norm_num
  rw [s1, s2, p1, p2]
  simp [dotProduct, Fin.sum_univ_three]
  ring

/-- **C85, against docs/docs/surface/geometry/quantities.md:672** ("will be diagonal on triangle meshes"): on a single right triangle, with the default
parameter `polygonLambda = 1`, the inner product of two different halfedges is 5/18. -/
theorem C85_hodge1_not_diagonal : lone.Valid ∧ lone.TriFaces ∧ ∃ o, lone.polygonDEC lonePos 1 = .ok o ∧ o.hodge1 0 2 = 5 / 18 := by
  have hv := lone_valid
  refine ⟨hv, fun i hi hx => (by decide +kernel : ∀ i < 6, ¬ lone.ext i → lone.heNext (lone.heNext (lone.heNext i)) = i) i hi.1 hx, ?_⟩
  obtain ⟨vs, hs, is, es, fs, R⟩ := hv.ranges
  obtain ⟨F, hF⟩ := hv.faceLoops
  obtain ⟨A, N, a1, n1, a2, n2⟩ := lone_geometry
  obtain ⟨-, ⟨hInd, eH, iH⟩, -⟩ := C62_indices lone hv
  obtain ⟨o, o1, o2⟩ := polygonDEC_forms hv hF R a1 n1 1 eH iH
  refine ⟨o, o1, ?_⟩
  have hfs : lone.faces = {0} := faces_single rfl (by decide +kernel)
  have fl : F 0 = [0, 2, 4] := by
    have := hF.nav 0 (by rw [hfs]; exact mem_singleton_self _)
    have e : lone.navFaceHalfedges 0 = .ok [0, 2, 4] := rfl
    rw [e] at this
    injection this with this
    exact this.symm
  have hi : hInd 0 = 0 ∧ hInd 2 = 2 ∧ hInd 4 = 4 := by
    have : lone.getHalfedgeIndices.toOption.map (fun f => (f 0, f 2, f 4)) = some (0, 2, 4) := by decide +kernel
    rw [eH] at this
    simpa [Except.toOption] using this
  rw [← pair_single o.hodge1 (show 0 < lone.nHe by decide) (show 2 < lone.nHe by decide), o2.h1, hfs, sum_singleton, fl, a2, n2]
  have q : polyMatrix lonePos ([0, 2, 4].map lone.heVertex) = (Matrix.of ![![0, 0, 0], ![1, 0, 0], ![0, 1, 0]] : Matrix (_root_.Fin 3) (_root_.Fin 3) ℝ) := by
    funext i k
    fin_cases i <;> fin_cases k <;> rfl
  have u1 : lone.aroundHe hInd (fun a => if a = 0 then (1 : ℝ) else 0) [0, 2, 4] = (![1, 0, 0] : _root_.Fin 3 → ℝ) := by
    funext i
    fin_cases i <;> simp [aroundHe, hi]
  have u2 : lone.aroundHe hInd (fun a => if a = 2 then (1 : ℝ) else 0) [0, 2, 4] = (![0, 1, 0] : _root_.Fin 3 → ℝ) := by
    funext i
    fin_cases i <;> simp [aroundHe, hi]
  have nz : V3.toEigen ⟨0, 0, 1⟩ = ![0, 0, 1] := rfl
  have := innerProduct_right 1
  rw [nz, q, u1, u2]
  refine this.trans ?_
  norm_num

/-! ## Non-vacuity -/

/-- The unit square has area. -/
theorem quad_area {A : ℕ → ℝ} {N : ℕ → V3} (e : A 0 = 1 ∧ N 0 = ⟨0, 0, 1⟩) : ∀ f, quad.fLive f → f < quad.nFFill → 0 < A f := by
  intro f _ h
  have : f = 0 := by
    have : quad.nFFill = 1 := rfl
    omega
  subst this
  rw [e.1]; exact one_pos

example : ∃ A L, quad.faceAreasE unitPos = .ok A ∧ quad.polygonLaplacian unitPos 1 = .ok L ∧ ∀ i < 4, ∑ j ∈ range 4, L i j = 0 := by
  obtain ⟨A, N, a, n, e⟩ := quad_geometry
  obtain ⟨L, ind, l1, -, -, l2, -⟩ := C85_laplacian quad unitPos 1 quad_valid one_pos a (quad_area e)
  exact ⟨A, L, a, l1, l2⟩

example : ∃ L len C, tetra.polygonLaplacian tetraPos 1 = .ok L ∧ tetra.edgeLengthsE tetraPos = .ok len ∧ tetra.cotanLaplacian len = .ok C ∧
    ∀ i < tetra.nV, ∀ j < tetra.nV, L i j = C i j := C85_cotan tetra tetraPos 1 tetra_valid tetra_tri tetraPos_nonDegenerate

/-- On the unit square the gradient matrix gives the gradient (-1, 0, 0) for the function `x`. -/
example : ∃ G vInd fInd, quad.polygonGradientMatrix unitPos = .ok G ∧ quad.getVertexIndices = .ok vInd ∧ quad.getFaceIndices = .ok fInd ∧
    ∀ u : ℕ → ℝ, (∀ v, u (vInd v) = (unitPos v).x) → ∑ j ∈ range quad.nV, G (3 * fInd 0 + 0) j * u j = -1 := by
  obtain ⟨A, N, a, n, e1, e2⟩ := quad_geometry
  obtain ⟨G, D, N', vInd, fInd, g1, -, n', i1, i2, key⟩ := C85_gradient_partial quad unitPos quad_valid a
  rw [n] at n'
  injection n' with n'
  subst n'
  refine ⟨G, vInd, fInd, g1, i1, i2, fun u hu => ?_⟩
  have := (key 0 (by decide +kernel) (by decide) 0).2 (.inr rfl) (by rw [e1]; exact one_pos) u ⟨1, 0, 0⟩ 0 (fun h _ _ => by rw [hu]; simp [V3.dot])
  rw [e2] at this
  refine this.trans ?_
  simp [V3.toEigen, V3.sub, V3.smul, V3.dot]

example : ∃ L ind, quad.polygonLaplacian unitPos 1 = .ok L ∧ quad.getVertexIndices = .ok ind := by
  obtain ⟨A, N, a, n, e⟩ := quad_geometry
  obtain ⟨L, ind, l1, l2, -⟩ := C85_linear_partial quad unitPos 1 quad_valid a
    (fun f h1 h2 => ⟨quad_area e f h1 h2, by
      have : f = 0 := by
        have : quad.nFFill = 1 := rfl
        omega
      subst this
      exact .inr rfl⟩) n (fun h h1 h2 => by
      have : quad.heFace h = 0 := by
        have : quad.nFFill = 1 := rfl
        unfold ext at h2
        omega
      have z0 : ∀ v, (unitPos v).z = 0 := by
        intro v; unfold unitPos; split <;> rfl
      rw [this, e.2]
      simp [V3.dot, V3.sub, z0])
  exact ⟨L, ind, l1, l2⟩

example : ∃ o L, quad.polygonDEC unitPos 1 = .ok o ∧ quad.polygonLaplacian unitPos 1 = .ok L := by
  obtain ⟨A, N, a, n, e⟩ := quad_geometry
  obtain ⟨o, L, -, -, h1, h2, -⟩ := C85_dec quad unitPos 1 quad_valid one_pos a (quad_area e)
  exact ⟨o, L, h1, h2⟩

end Mesh
end GC
