import Verif.PolygonFan
import Verif.Props.Polygon

/-! # C86: the operators of Bunge et al. on polygon meshes -/

namespace GC
open Matrix
open Classical Finset

namespace Mesh
variable {m : Mesh} {pos : ℕ → V3} {vs hs is es fs : List ℕ}

/-- The type of the solver for the virtual vertices. -/
abbrev Solver := {n : ℕ} → Matrix (_root_.Fin n ⊕ Unit) (_root_.Fin n) ℝ → (_root_.Fin n ⊕ Unit → ℝ) → (_root_.Fin n → ℝ)

/-- The cross product of the triangle between the side `h` of a face and a point `q`; its length is twice the area. -/
def spread (m : Mesh) (pos : ℕ → V3) (q : V3) (h : ℕ) : V3 := ((pos (m.heVertex h)).sub q).cross ((pos (m.heVertex (m.heNext h))).sub q)

/-- The sum of the squares of twice the areas of the triangles between the sides of a face and a point. -/
noncomputable def spreadSq (m : Mesh) (pos : ℕ → V3) (f : ℕ) (q : V3) : ℝ :=
  ∑ h ∈ range m.nHeFill with m.heLive h ∧ m.heFace h = f, (m.spread pos q h).dot (m.spread pos q h)

/-- A vector of three components as a point. -/
def toPoint (v : _root_.Fin 3 → ℝ) : V3 := ⟨v 0, v 1, v 2⟩

theorem toEigen_toPoint (v : _root_.Fin 3 → ℝ) : (toPoint v).toEigen = v := by
  funext k; fin_cases k <;> rfl

/-- The virtual vertex of a face. -/
noncomputable def center (m : Mesh) (pos : ℕ → V3) (solve : Solver) (l : List ℕ) : V3 :=
  let p := polyMatrix pos (l.map m.heVertex)
  toPoint (pᵀ *ᵥ Poly.virtualVertex p solve)

theorem face_sum {L : ℕ → List ℕ} (F : m.FaceLoops L) {f : ℕ} (hf : f ∈ m.faces) (G : ℕ → ℕ → ℝ) :
    ∑ i : _root_.Fin ((L f).map m.heVertex).length, G (((L f).map m.heVertex).get i) (((L f).map m.heVertex).get (Poly.cyc i)) =
      ∑ h ∈ m.ints with m.heFace h = f, G (m.heVertex h) (m.heVertex (m.heNext h)) := by
  rw [sum_sides F hf, sum_of_nodup (F.nodup f hf) (S := m.ints.filter (fun h => m.heFace h = f)) (fun h => by rw [F.mem f hf, mem_filter])]

theorem all_sum (hv : m.Valid) (G : ℕ → ℕ → ℝ) : ∑ f ∈ m.faces, ∑ h ∈ m.ints with m.heFace h = f, G f h = ∑ h ∈ m.ints, G (m.heFace h) h := by
  rw [← sum_fiberwise_of_maps_to (fun h hh => int_face hv hh)]
  refine sum_congr rfl (fun f _ => sum_congr rfl (fun h hh => ?_))
  rw [(mem_filter.1 hh).2]

theorem fanCross_spread {L : ℕ → List ℕ} (F : m.FaceLoops L) {f : ℕ} (hf : f ∈ m.faces) {solve : Solver} (i : _root_.Fin ((L f).map m.heVertex).length) :
    Poly.fanCross (polyMatrix pos ((L f).map m.heVertex)) (Poly.virtualVertex (polyMatrix pos ((L f).map m.heVertex)) solve) i =
      (m.spread pos (m.center pos solve (L f)) ((L f).get (i.cast (List.length_map _)))).toEigen := by
  obtain ⟨e1, e2⟩ := get_cyc F hf i
  unfold spread
  rw [toEigen_cross, toEigen_sub, toEigen_sub, ← e1, ← e2]
  unfold center
  rw [toEigen_toPoint]
  rfl

theorem spread_sum {L : ℕ → List ℕ} (F : m.FaceLoops L) {f : ℕ} (hf : f ∈ m.faces) {solve : Solver} (G : (_root_.Fin 3 → ℝ) → ℝ) :
    ∑ i, G (Poly.fanCross (polyMatrix pos ((L f).map m.heVertex)) (Poly.virtualVertex (polyMatrix pos ((L f).map m.heVertex)) solve) i) =
      ∑ h ∈ m.ints with m.heFace h = f, G (m.spread pos (m.center pos solve (L f)) h).toEigen := by
  have e := face_sum F hf (fun a b => G (((pos a).toEigen - (m.center pos solve (L f)).toEigen) ⨯₃ ((pos b).toEigen - (m.center pos solve (L f)).toEigen)))
  refine Eq.trans ?_ (e.trans ?_)
  · refine sum_congr rfl (fun i _ => ?_)
    unfold center
    rw [toEigen_toPoint]
    rfl
  · refine sum_congr rfl (fun h _ => ?_)
    unfold spread
    rw [toEigen_cross, toEigen_sub, toEigen_sub]

theorem face_halfedges (hv : m.Valid) {f : ℕ} (hf : f ∈ m.faces) : {h ∈ range m.nHeFill | m.heLive h ∧ m.heFace h = f} = m.ints.filter (fun h => m.heFace h = f) := by
  ext h
  rw [mem_filter, mem_filter, mem_ints, mem_range]
  constructor
  · rintro ⟨-, h1, h2⟩
    exact ⟨⟨h1, face_not_ext hv (by rw [h2]; exact (mem_faces.1 hf).2)⟩, h2⟩
  · rintro ⟨⟨h1, -⟩, h2⟩
    exact ⟨h1.1, h1, h2⟩

theorem sides_pos {L : ℕ → List ℕ} (hv : m.Valid) (F : m.FaceLoops L) {f : ℕ} (hf : f ∈ m.faces) : 0 < ((L f).map m.heVertex).length := by
  obtain ⟨q1, q2⟩ := mem_faces.1 hf
  obtain ⟨l0, e0⟩ := hv.f_he f q1
  rw [List.length_map]
  exact List.length_pos_of_mem ((F.mem f hf (m.fHalfedge f)).2 ⟨mem_ints.2 ⟨l0, face_not_ext hv (by rw [e0]; exact q2)⟩, e0⟩)

/-- The virtual vertex of a face minimises the sum of the squared areas. -/
theorem center_min {L : ℕ → List ℕ} (hv : m.Valid) (F : m.FaceLoops L) {f : ℕ} (hf : f ∈ m.faces) {solve : Solver} (hs : Poly.Solves solve) (q : V3) :
    m.spreadSq pos f (m.center pos solve (L f)) ≤ m.spreadSq pos f q := by
  have key : ∀ q : V3, m.spreadSq pos f q = Poly.fanEnergy (polyMatrix pos ((L f).map m.heVertex)) q.toEigen := by
    intro q
    unfold spreadSq
    rw [face_halfedges hv hf]
    have e := face_sum F hf (fun a b => (((pos a).toEigen - q.toEigen) ⨯₃ ((pos b).toEigen - q.toEigen)) ⬝ᵥ (((pos a).toEigen - q.toEigen) ⨯₃ ((pos b).toEigen - q.toEigen)))
    refine Eq.trans ?_ e.symm
    refine sum_congr rfl (fun h _ => ?_)
    unfold spread
    rw [← toEigen_dot, toEigen_cross, toEigen_sub, toEigen_sub]
  rw [key, key]
  have := (Poly.virtualVertex_spec (p := polyMatrix pos ((L f).map m.heVertex)) hs (sides_pos hv F hf)).2 q.toEigen
  unfold center
  rw [toEigen_toPoint]
  exact this

theorem simpleLaplacian_form {L : ℕ → List ℕ} (hv : m.Valid) (F : m.FaceLoops L) (R : m.Ranges vs hs is es fs) (solve : Solver) :
    ∃ M, m.simplePolygonLaplacian pos solve = .ok M ∧ ∀ x y : ℕ → ℝ, ∑ i ∈ range m.nV, ∑ j ∈ range m.nV, x i * M i j * y j =
      ∑ f ∈ m.faces, around (number vs) x ((L f).map m.heVertex) ⬝ᵥ
        (Poly.simpleStiffness (polyMatrix pos ((L f).map m.heVertex)) (Poly.virtualVertex (polyMatrix pos ((L f).map m.heVertex)) solve) *ᵥ
          around (number vs) y ((L f).map m.heVertex)) := by
  obtain ⟨T, t1, t2, t3⟩ := assemble hv F R (fun l _ => Poly.simpleStiffness (polyMatrix pos l) (Poly.virtualVertex (polyMatrix pos l) solve))
  refine ⟨entry T, ?_, t3⟩
  simp only [simplePolygonLaplacian, R.iv.1, R.f, bind, Except.bind]
  simp only [bind, Except.bind] at t1
  rw [t1]
  exact t2

theorem simpleMass_form {L : ℕ → List ℕ} (hv : m.Valid) (F : m.FaceLoops L) (R : m.Ranges vs hs is es fs) (solve : Solver) :
    ∃ M, m.simplePolygonVertexGalerkinMassMatrix pos solve = .ok M ∧ ∀ x y : ℕ → ℝ, ∑ i ∈ range m.nV, ∑ j ∈ range m.nV, x i * M i j * y j =
      ∑ f ∈ m.faces, around (number vs) x ((L f).map m.heVertex) ⬝ᵥ
        (Poly.simpleMass (polyMatrix pos ((L f).map m.heVertex)) (Poly.virtualVertex (polyMatrix pos ((L f).map m.heVertex)) solve) *ᵥ
          around (number vs) y ((L f).map m.heVertex)) := by
  obtain ⟨T, t1, t2, t3⟩ := assemble hv F R (fun l _ => Poly.simpleMass (polyMatrix pos l) (Poly.virtualVertex (polyMatrix pos l) solve))
  refine ⟨entry T, ?_, t3⟩
  simp only [simplePolygonVertexGalerkinMassMatrix, R.iv.1, R.f, bind, Except.bind]
  simp only [bind, Except.bind] at t1
  rw [t1]
  exact t2

theorem simpleLumped_form {L : ℕ → List ℕ} (hv : m.Valid) (F : m.FaceLoops L) (R : m.Ranges vs hs is es fs) (solve : Solver) :
    ∃ M, m.simplePolygonVertexLumpedMassMatrix pos solve = .ok M ∧ (∀ i j, i ≠ j → M i j = 0) ∧
      ∀ x y : ℕ → ℝ, ∑ i ∈ range m.nV, ∑ j ∈ range m.nV, x i * M i j * y j =
      ∑ f ∈ m.faces, around (number vs) (fun i => x i * y i) ((L f).map m.heVertex) ⬝ᵥ
        (Poly.simpleMass (polyMatrix pos ((L f).map m.heVertex)) (Poly.virtualVertex (polyMatrix pos ((L f).map m.heVertex)) solve) *ᵥ fun _ => 1) := by
  set T := fs.flatMap (fun f => (List.finRange ((L f).map m.heVertex).length).flatMap fun j => (List.finRange ((L f).map m.heVertex).length).map fun i =>
    (number vs (((L f).map m.heVertex).get i), number vs (((L f).map m.heVertex).get i),
      Poly.simpleMass (polyMatrix pos ((L f).map m.heVertex)) (Poly.virtualVertex (polyMatrix pos ((L f).map m.heVertex)) solve) i j)) with hT
  have mem : ∀ t ∈ T, ∃ f ∈ m.faces, ∃ i j, t = (number vs (((L f).map m.heVertex).get i), number vs (((L f).map m.heVertex).get i),
      Poly.simpleMass (polyMatrix pos ((L f).map m.heVertex)) (Poly.virtualVertex (polyMatrix pos ((L f).map m.heVertex)) solve) i j) := by
    intro t ht
    obtain ⟨f, hf, h⟩ := List.mem_flatMap.1 ht
    obtain ⟨j, -, h⟩ := List.mem_flatMap.1 h
    obtain ⟨i, -, rfl⟩ := List.mem_map.1 h
    exact ⟨f, (R.mf f).1 hf, i, j, rfl⟩
  have bd : ∀ t ∈ T, t.1 < m.nV ∧ t.2.1 < m.nV := by
    intro t ht
    obtain ⟨f, hf, i, j, rfl⟩ := mem t ht
    exact ⟨vert_index hv F R hf i, vert_index hv F R hf i⟩
  refine ⟨entry T, ?_, fun i j hij => ?_, fun x y => ?_⟩
  · simp only [simplePolygonVertexLumpedMassMatrix, R.iv.1, R.f, bind, Except.bind]
    rw [perFace_ok (G := fun f => (List.finRange ((L f).map m.heVertex).length).flatMap fun j => (List.finRange ((L f).map m.heVertex).length).map fun i =>
      (number vs (((L f).map m.heVertex).get i), number vs (((L f).map m.heVertex).get i),
        Poly.simpleMass (polyMatrix pos ((L f).map m.heVertex)) (Poly.virtualVertex (polyMatrix pos ((L f).map m.heVertex)) solve) i j))]
    · exact setFromTriplets_ok bd
    · intro f hf
      simp only [F.verts f ((R.mf f).1 hf)]
  · unfold entry
    refine List.sum_eq_zero (fun z hz => ?_)
    obtain ⟨t, ht, rfl⟩ := List.mem_map.1 hz
    obtain ⟨f, hf, a, b, rfl⟩ := mem t ht
    exact if_neg (fun h => hij (h.1.symm.trans h.2))
  · rw [entry_pair bd, hT, sum_flatMap, sum_of_nodup R.nf R.mf]
    refine sum_congr rfl (fun f _ => ?_)
    rw [sum_flatMap, sum_finRange]
    simp only [List.map_map, Function.comp_def, sum_finRange]
    simp only [dotProduct, mulVec, mul_sum, around]
    rw [sum_comm]
    exact sum_congr rfl (fun i _ => sum_congr rfl (fun j _ => by ring))

theorem norm_toEigen (v : V3) : Real.sqrt (v.toEigen ⬝ᵥ v.toEigen) = v.norm := by
  rw [toEigen_dot]
  rfl

theorem fan2_spread {L : ℕ → List ℕ} (F : m.FaceLoops L) {f : ℕ} (hf : f ∈ m.faces) {solve : Solver} {c : ℝ}
    (h : ∀ h, m.heLive h → ¬ m.ext h → c < (m.spread pos (m.center pos solve (L (m.heFace h))) h).norm) (i : _root_.Fin ((L f).map m.heVertex).length) :
    c < Poly.fan2 (polyMatrix pos ((L f).map m.heVertex)) (Poly.virtualVertex (polyMatrix pos ((L f).map m.heVertex)) solve) i := by
  unfold Poly.fan2
  rw [fanCross_spread F hf, norm_toEigen]
  obtain ⟨q1, q2⟩ := (F.mem f hf _).1 (List.get_mem (L f) (i.cast (List.length_map _)))
  obtain ⟨q3, q4⟩ := mem_ints.1 q1
  have := h _ q3 q4
  rw [q2] at this
  exact this

theorem edges_const {L : ℕ → List ℕ} (hv : m.Valid) (hF : m.FaceLoops L) (ind : ℕ → ℕ) (u : ℕ → ℝ) :
    (∀ f ∈ m.faces, ∀ h ∈ L f, u (ind (m.heVertex (m.heNext h))) = u (ind (m.heVertex h))) ↔
      ∀ h, m.heLive h → u (ind (m.heVertex h)) = u (ind (m.heVertex (m.heNext h))) := by
  constructor
  · intro q h hh
    have key : ∀ h ∈ m.ints, u (ind (m.heVertex (m.heNext h))) = u (ind (m.heVertex h)) := fun h hh =>
      q (m.heFace h) (int_face hv hh) h ((hF.mem _ (int_face hv hh) h).2 ⟨hh, rfl⟩)
    by_cases hx : m.ext h
    · have := key (GC.twin h) (mem_ints.2 ⟨hv.twin_live h hh, hv.ext_twin hh hx⟩)
      rw [hv.vertex_next (hv.twin_live h hh), twin_twin] at this
      rw [this, hv.vertex_next hh]
    · exact (key h (mem_ints.2 ⟨hh, hx⟩)).symm
  · intro q f hf h hh
    exact (q h (mem_ints.1 ((hF.mem f hf h).1 hh).1).1).symm

/-- **C86, Laplacian.** On every valid mesh, with every solver that solves the systems that have a solution, `simplePolygonLaplacian` is symmetric,
positive semidefinite and has zero row sums. The virtual vertex `q f` of each face minimises the sum of the squared areas of its fan. If twice the area of
each triangle of the fans is above the threshold, the kernel consists of the functions that take equal values at the ends of each edge, and the quadratic form at
a linear function is its Dirichlet energy on the fans. -/
theorem C86_laplacian (m : Mesh) (pos : ℕ → V3) (solve : Solver) (hv : m.Valid) (hs : Poly.Solves solve) :
    ∃ L ind, ∃ q : ℕ → V3, m.simplePolygonLaplacian pos solve = .ok L ∧ m.getVertexIndices = .ok ind ∧
      (∀ f, m.fLive f → f < m.nFFill → ∀ x, m.spreadSq pos f (q f) ≤ m.spreadSq pos f x) ∧
      (∀ i < m.nV, ∀ j < m.nV, L i j = L j i) ∧ (∀ i < m.nV, ∑ j ∈ range m.nV, L i j = 0) ∧
      (∀ u : ℕ → ℝ, 0 ≤ ∑ i ∈ range m.nV, ∑ j ∈ range m.nV, u i * L i j * u j) ∧
      ((∀ h, m.heLive h → ¬ m.ext h → 1e-7 < (m.spread pos (q (m.heFace h)) h).norm) →
        (∀ u : ℕ → ℝ, (∀ i < m.nV, ∑ j ∈ range m.nV, L i j * u j = 0) ↔
          ∀ h, m.heLive h → u (ind (m.heVertex h)) = u (ind (m.heVertex (m.heNext h)))) ∧
        ∀ (u : ℕ → ℝ) (g : V3) (b : ℝ), (∀ v, m.vLive v → u (ind v) = g.dot (pos v) + b) →
          ∑ i ∈ range m.nV, ∑ j ∈ range m.nV, u i * L i j * u j = ∑ h ∈ range m.nHeFill with m.heLive h ∧ ¬ m.ext h,
            (g.dot g * (m.spread pos (q (m.heFace h)) h).norm ^ 2 - g.dot (m.spread pos (q (m.heFace h)) h) ^ 2) /
              (2 * (m.spread pos (q (m.heFace h)) h).norm)) := by
  obtain ⟨vs, hs', is, es, fs, R⟩ := hv.ranges
  obtain ⟨F, hF⟩ := hv.faceLoops
  obtain ⟨L, l1, l2⟩ := simpleLaplacian_form (pos := pos) hv hF R solve
  have one : ∀ f ∈ m.faces, ∑ i, Poly.virtualVertex (polyMatrix pos ((F f).map m.heVertex)) solve i = 1 := fun f hf =>
    (Poly.virtualVertex_spec hs (sides_pos hv hF hf)).1
  have zero : ∀ x y : ℕ → ℝ, (∀ f ∈ m.faces, ∀ h ∈ F f, y (number vs (m.heVertex (m.heNext h))) = y (number vs (m.heVertex h))) →
      ∑ i ∈ range m.nV, ∑ j ∈ range m.nV, x i * L i j * y j = 0 := by
    intro x y h
    rw [l2]
    exact sum_eq_zero (fun f hf => Poly.simpleStiffness_const (one f hf) _ ((around_const hF hf (number vs) y).2 (h f hf)))
  refine ⟨L, number vs, fun f => m.center pos solve (F f), l1, R.iv.1, fun f h1 h2 => center_min hv hF (mem_faces.2 ⟨h1, h2⟩) hs,
    fun i hi j hj => ?_, fun i hi => ?_, fun u => ?_, fun hb => ⟨fun u => ⟨fun h0 => ?_, fun h0 => ?_⟩, fun u g b hu => ?_⟩⟩
  · rw [← pair_single L hi hj, ← pair_single L hj hi, l2, l2]
    exact sum_congr rfl (fun f _ => Poly.simpleStiffness_symm _ _)
  · have := pair_row L (k := m.nV) hi (fun _ => 1)
    simp only [mul_one] at this
    rw [← this]
    have h2 := zero (fun a => if a = i then 1 else 0) (fun _ => 1) (fun _ _ _ _ => rfl)
    simp only [mul_one] at h2
    exact h2
  · rw [l2]; exact sum_nonneg (fun f hf => Poly.simpleStiffness_nonneg _)
  · have e : ∑ i ∈ range m.nV, ∑ j ∈ range m.nV, u i * L i j * u j = 0 := by
      refine sum_eq_zero (fun i hi => ?_)
      have := h0 i (mem_range.1 hi)
      simp only [mul_assoc]
      rw [← mul_sum, this, mul_zero]
    rw [l2] at e
    have e := (sum_eq_zero_iff_of_nonneg (fun f hf => Poly.simpleStiffness_nonneg _)).1 e
    refine (edges_const hv hF (number vs) u).1 (fun f hf => ?_)
    exact (around_const hF hf (number vs) u).1 (Poly.simpleStiffness_zero (fan2_spread hF hf hb) (e f hf))
  · intro i hi
    rw [← pair_row L hi u]
    exact zero _ _ ((edges_const hv hF (number vs) u).2 h0)
  · rw [l2]
    have : {h ∈ range m.nHeFill | m.heLive h ∧ ¬ m.ext h} = m.ints := rfl
    rw [this, ← all_sum hv (fun f h => (g.dot g * (m.spread pos (m.center pos solve (F f)) h).norm ^ 2 - g.dot (m.spread pos (m.center pos solve (F f)) h) ^ 2) /
              (2 * (m.spread pos (m.center pos solve (F f)) h).norm))]
    refine sum_congr rfl (fun f hf => ?_)
    rw [around_linear hv hF hf (g := g) (c := b) (fun h a _ => hu _ (hv.vertex_live _ a)), Poly.simpleStiffness_linear (fan2_spread hF hf hb) (one f hf)]
    refine (spread_sum hF hf (fun c => ((g.toEigen ⬝ᵥ g.toEigen) * (Real.sqrt (c ⬝ᵥ c)) ^ 2 - (g.toEigen ⬝ᵥ c) ^ 2) / (2 * Real.sqrt (c ⬝ᵥ c)))).trans ?_
    refine sum_congr rfl (fun h _ => ?_)
    simp only [norm_toEigen, toEigen_dot]
    rfl

/-- **C86, mass matrices.** The Galerkin mass matrix is symmetric and positive semidefinite, and definite on the vertices of faces if the triangles of the
fans have area. Its entries sum to the area of the fans. The lumped mass matrix is diagonal, with the row sums of the Galerkin mass matrix. -/
theorem C86_mass (m : Mesh) (pos : ℕ → V3) (solve : Solver) (hv : m.Valid) (hs : Poly.Solves solve) :
    ∃ M D ind, ∃ q : ℕ → V3, m.simplePolygonVertexGalerkinMassMatrix pos solve = .ok M ∧ m.simplePolygonVertexLumpedMassMatrix pos solve = .ok D ∧
      m.getVertexIndices = .ok ind ∧ (∀ f, m.fLive f → f < m.nFFill → ∀ x, m.spreadSq pos f (q f) ≤ m.spreadSq pos f x) ∧
      (∀ i < m.nV, ∀ j < m.nV, M i j = M j i) ∧ (∀ u : ℕ → ℝ, 0 ≤ ∑ i ∈ range m.nV, ∑ j ∈ range m.nV, u i * M i j * u j) ∧
      ((∀ h, m.heLive h → ¬ m.ext h → 0 < (m.spread pos (q (m.heFace h)) h).norm) → ∀ u : ℕ → ℝ,
        ∑ i ∈ range m.nV, ∑ j ∈ range m.nV, u i * M i j * u j = 0 → ∀ h, m.heLive h → ¬ m.ext h → u (ind (m.heVertex h)) = 0) ∧
      ∑ i ∈ range m.nV, ∑ j ∈ range m.nV, M i j = ∑ h ∈ range m.nHeFill with m.heLive h ∧ ¬ m.ext h, (m.spread pos (q (m.heFace h)) h).norm / 2 ∧
      (∀ i j, i ≠ j → D i j = 0) ∧ (∀ i < m.nV, D i i = ∑ j ∈ range m.nV, M i j) := by
  obtain ⟨vs, hs', is, es, fs, R⟩ := hv.ranges
  obtain ⟨F, hF⟩ := hv.faceLoops
  obtain ⟨M, m1, m2⟩ := simpleMass_form (pos := pos) hv hF R solve
  obtain ⟨D, d1, d2, d3⟩ := simpleLumped_form (pos := pos) hv hF R solve
  have one : ∀ f ∈ m.faces, ∑ i, Poly.virtualVertex (polyMatrix pos ((F f).map m.heVertex)) solve i = 1 := fun f hf =>
    (Poly.virtualVertex_spec hs (sides_pos hv hF hf)).1
  refine ⟨M, D, number vs, fun f => m.center pos solve (F f), m1, d1, R.iv.1, fun f h1 h2 => center_min hv hF (mem_faces.2 ⟨h1, h2⟩) hs,
    fun i hi j hj => ?_, fun u => ?_, fun hb u h0 h h1 h2 => ?_, ?_, d2, fun i hi => ?_⟩
  · rw [← pair_single M hi hj, ← pair_single M hj hi, m2, m2]
    exact sum_congr rfl (fun f _ => Poly.simpleMass_symm _ _)
  · rw [m2]; exact sum_nonneg (fun f hf => Poly.simpleMass_nonneg _)
  · rw [m2] at h0
    have hh := mem_ints.2 ⟨h1, h2⟩
    have hf := int_face hv hh
    have e := (sum_eq_zero_iff_of_nonneg (fun f hf => Poly.simpleMass_nonneg _)).1 h0 (m.heFace h) hf
    have z := Poly.simpleMass_zero (fan2_spread hF hf hb) e
    obtain ⟨k, hk, e⟩ := List.getElem_of_mem (List.mem_map_of_mem (f := m.heVertex) ((hF.mem _ hf h).2 ⟨hh, rfl⟩))
    have := z ⟨k, hk⟩
    unfold around at this
    rw [List.get_eq_getElem] at this
    simp only [e] at this
    exact this
  · have h2 := m2 (fun _ => 1) (fun _ => 1)
    simp only [mul_one, one_mul] at h2
    rw [h2]
    have : {h ∈ range m.nHeFill | m.heLive h ∧ ¬ m.ext h} = m.ints := rfl
    rw [this, ← all_sum hv (fun f h => (m.spread pos (m.center pos solve (F f)) h).norm / 2)]
    refine sum_congr rfl (fun f hf => ?_)
    refine (Poly.simpleMass_total (one f hf)).trans ?_
    refine (spread_sum hF hf (fun c => Real.sqrt (c ⬝ᵥ c) / 2)).trans ?_
    exact sum_congr rfl (fun h _ => by simp only [norm_toEigen])
  · rw [← pair_single D hi hi, d3]
    have := pair_row M (k := m.nV) hi (fun _ => 1)
    simp only [mul_one] at this
    rw [← this]
    have h2 := m2 (fun a => if a = i then 1 else 0) (fun _ => 1)
    simp only [mul_one] at h2
    rw [h2]
    refine sum_congr rfl (fun f _ => ?_)
    congr 1
    funext k
    unfold around
    simp

/-! ## Triangle meshes -/

theorem center_tri {L : ℕ → List ℕ} (hv : m.Valid) (ht : m.TriFaces) (hF : m.FaceLoops L) {f : ℕ} (hf : f ∈ m.faces) :
    L f = [m.fHalfedge f, m.heNext (m.fHalfedge f), m.heNext (m.heNext (m.fHalfedge f))] := by
  have := hF.nav f hf
  rw [nav_tri hv ht hf] at this
  injection this with this
  exact this.symm

/-- The positions of a triangle. -/
noncomputable def triMatrix (m : Mesh) (pos : ℕ → V3) (f : ℕ) : Matrix (_root_.Fin 3) (_root_.Fin 3) ℝ :=
  Matrix.of ![(pos (m.heVertex (m.fHalfedge f))).toEigen, (pos (m.heVertex (m.heNext (m.fHalfedge f)))).toEigen,
    (pos (m.heVertex (m.heNext (m.heNext (m.fHalfedge f))))).toEigen]

/-- The values at the corners of a triangle. -/
def triValues (m : Mesh) (ind : ℕ → ℕ) (x : ℕ → ℝ) (f : ℕ) : _root_.Fin 3 → ℝ :=
  ![x (ind (m.heVertex (m.fHalfedge f))), x (ind (m.heVertex (m.heNext (m.fHalfedge f)))), x (ind (m.heVertex (m.heNext (m.heNext (m.fHalfedge f)))))]

theorem tri_local (f : ℕ) (S : (l : List ℕ) → Matrix (_root_.Fin l.length) (_root_.Fin 3) ℝ → Matrix (_root_.Fin l.length) (_root_.Fin l.length) ℝ)
    (ind : ℕ → ℕ) (x y : ℕ → ℝ) :
    around ind x ([m.fHalfedge f, m.heNext (m.fHalfedge f), m.heNext (m.heNext (m.fHalfedge f))].map m.heVertex) ⬝ᵥ
      (S _ (polyMatrix pos ([m.fHalfedge f, m.heNext (m.fHalfedge f), m.heNext (m.heNext (m.fHalfedge f))].map m.heVertex)) *ᵥ
        around ind y ([m.fHalfedge f, m.heNext (m.fHalfedge f), m.heNext (m.heNext (m.fHalfedge f))].map m.heVertex)) =
    m.triValues ind x f ⬝ᵥ (S ([m.fHalfedge f, m.heNext (m.fHalfedge f), m.heNext (m.heNext (m.fHalfedge f))].map m.heVertex) (m.triMatrix pos f) *ᵥ m.triValues ind y f) := by
  have e1 : ∀ x, around ind x ([m.fHalfedge f, m.heNext (m.fHalfedge f), m.heNext (m.heNext (m.fHalfedge f))].map m.heVertex) = m.triValues ind x f := by
    intro x
    funext k
    fin_cases k <;> rfl
  have e2 : polyMatrix pos ([m.fHalfedge f, m.heNext (m.fHalfedge f), m.heNext (m.heNext (m.fHalfedge f))].map m.heVertex) = m.triMatrix pos f := by
    funext k
    fin_cases k <;> rfl
  rw [e1, e1, e2]

theorem triCross_area (f : ℕ) : Poly.triCross (m.triMatrix pos f) = (m.area2 pos (m.fHalfedge f)).toEigen := by
  unfold area2
  rw [toEigen_cross, toEigen_sub, toEigen_sub]
  rfl

theorem area2_all (hv : m.Valid) (ht : m.TriFaces) {f : ℕ} (hf : f ∈ m.faces) : m.fHalfedge f ∈ m.ints := by
  obtain ⟨q1, q2⟩ := mem_faces.1 hf
  obtain ⟨h0, e0⟩ := hv.f_he f q1
  exact mem_ints.2 ⟨h0, face_not_ext hv (by rw [e0]; exact q2)⟩

theorem toEigen_ne {v : V3} (h : v ≠ ⟨0, 0, 0⟩) : v.toEigen ≠ 0 := by
  intro e
  refine h (V3.ext ?_ ?_ ?_)
  · exact congrFun e 0
  · exact congrFun e 1
  · exact congrFun e 2

/-- **C86, triangle meshes.** On a triangle mesh whose faces all have more than 3e-7 as twice their area, `simplePolygonLaplacian` is the cotangent Laplacian. The
Galerkin mass matrix is that of the finite elements, for all areas. -/
theorem C86_cotan (m : Mesh) (pos : ℕ → V3) (solve : Solver) (hv : m.Valid) (hs : Poly.Solves solve) (ht : m.TriFaces) (hn : m.NonDegenerate pos) :
    ∃ L M len C G, m.simplePolygonLaplacian pos solve = .ok L ∧ m.simplePolygonVertexGalerkinMassMatrix pos solve = .ok M ∧
      m.edgeLengthsE pos = .ok len ∧ m.cotanLaplacian len = .ok C ∧ m.vertexGalerkinMassMatrix len = .ok G ∧
      (∀ i < m.nV, ∀ j < m.nV, M i j = G i j) ∧
      ((∀ h, m.heLive h → ¬ m.ext h → 3e-7 < (((pos (m.heVertex (m.heNext h))).sub (pos (m.heVertex h))).cross
          ((pos (m.heVertex (m.heNext (m.heNext h)))).sub (pos (m.heVertex h)))).norm) →
        ∀ i < m.nV, ∀ j < m.nV, L i j = C i j) := by
  obtain ⟨vs, hs', is, es, fs, R⟩ := hv.ranges
  obtain ⟨F, hF⟩ := hv.faceLoops
  obtain ⟨L, l1, l2⟩ := simpleLaplacian_form (pos := pos) hv hF R solve
  obtain ⟨M, m1, m2⟩ := simpleMass_form (pos := pos) hv hF R solve
  obtain ⟨len, e1, -, e3⟩ := edgeLengthsE_ok hv ht hn R
  obtain ⟨C, c1, c2⟩ := cotanLaplacian_form (len := len) hv R
  obtain ⟨G, g1, g2⟩ := galerkin_form (len := len) hv R
  have third : ∀ f ∈ m.faces, Poly.virtualVertex (m.triMatrix pos f) solve = fun _ => 1 / 3 := fun f hf =>
    Poly.virtualVertex_tri hs (by
      rw [triCross_area]
      obtain ⟨a, b⟩ := mem_ints.1 (area2_all hv ht hf)
      exact toEigen_ne (hn _ a b))
  have area : ∀ f ∈ m.faces, 2 * m.faceArea len f = Real.sqrt (Poly.triCross (m.triMatrix pos f) ⬝ᵥ Poly.triCross (m.triMatrix pos f)) := by
    intro f hf
    rw [triCross_area, norm_toEigen]
    have := e3.area _ (area2_all hv ht hf)
    rw [(hv.f_he f (mem_faces.1 hf).1).2] at this
    rw [this]
    unfold area2
    ring
  refine ⟨L, M, len, C, G, l1, m1, e1, c1, g1, fun i hi j hj => ?_, fun hb i hi j hj => ?_⟩
  · rw [← pair_single M hi hj, ← pair_single G hi hj]
    suffices ∀ x y : ℕ → ℝ, ∑ i ∈ range m.nV, ∑ j ∈ range m.nV, x i * M i j * y j = ∑ i ∈ range m.nV, ∑ j ∈ range m.nV, x i * G i j * y j from
      this (fun a => if a = i then 1 else 0) (fun a => if a = j then 1 else 0)
    intro x y
    rw [m2, g2]
    refine sum_congr rfl (fun f hf => ?_)
    rw [center_tri hv ht hF hf]
    refine (tri_local f (fun _ p => Poly.simpleMass p (Poly.virtualVertex p solve)) (number vs) x y).trans ?_
    show m.triValues (number vs) x f ⬝ᵥ (Poly.simpleMass (m.triMatrix pos f) (Poly.virtualVertex (m.triMatrix pos f) solve) *ᵥ m.triValues (number vs) y f) = _
    rw [third f hf, Poly.simpleMass_form, Fin.sum_univ_three]
    simp only [Poly.fan2_third, ← area f hf]
    unfold Poly.blend
    rw [Poly.cyc0, Poly.cyc1, Poly.cyc2]
    have av : ∀ x : _root_.Fin 3 → ℝ, (fun _ => (1 / 3 : ℝ)) ⬝ᵥ x = (x 0 + x 1 + x 2) / 3 := by
      intro x
      simp only [dotProduct, Fin.sum_univ_three]
      ring
    simp only [av]
    simp only [triValues, Matrix.cons_val_zero, Matrix.cons_val_one, Matrix.cons_val_two, Matrix.head_cons, Matrix.tail_cons, Matrix.cons_val]
    ring
  · rw [← pair_single L hi hj, ← pair_single C hi hj, l2, c2, ← sum_faces hv ht]
    generalize (fun a => if a = i then (1 : ℝ) else 0) = x
    generalize (fun a => if a = j then (1 : ℝ) else 0) = y
    refine sum_congr rfl (fun f hf => ?_)
    have i0 := area2_all hv ht hf
    obtain ⟨h0, x0⟩ := mem_ints.1 i0
    have i1 := int_next hv i0
    have i2 := int_next hv i1
    have t := ht _ h0 x0
    have ar : (m.area2 pos (m.fHalfedge f)).norm = 2 * m.faceArea len f := by
      rw [area f hf, triCross_area, norm_toEigen]
    have big : 2 * m.faceArea len f / 3 > 1e-7 := by
      have : 3e-7 < (m.area2 pos (m.fHalfedge f)).norm := hb _ h0 x0
      rw [ar] at this
      norm_num at this ⊢
      linarith
    rw [center_tri hv ht hF hf]
    refine (tri_local f (fun _ p => Poly.simpleStiffness p (Poly.virtualVertex p solve)) (number vs) x y).trans ?_
    show m.triValues (number vs) x f ⬝ᵥ (Poly.simpleStiffness (m.triMatrix pos f) (Poly.virtualVertex (m.triMatrix pos f) solve) *ᵥ m.triValues (number vs) y f) = _
    rw [third f hf, Poly.simpleStiffness_third (area f hf) big]
    rw [← cot3 hv ht e3 i0, ← cot3 hv ht e3 i1, ← cot3 hv ht e3 i2, cot_area2 ht h0 x0, cot_area2 ht (mem_ints.1 i1).1 (mem_ints.1 i1).2,
      cot_area2 ht (mem_ints.1 i2).1 (mem_ints.1 i2).2, area2_next ht i1, area2_next ht i0, ar, t]
    have r0 : m.triMatrix pos f 0 = (pos (m.heVertex (m.fHalfedge f))).toEigen := rfl
    have r1 : m.triMatrix pos f 1 = (pos (m.heVertex (m.heNext (m.fHalfedge f)))).toEigen := rfl
    have r2 : m.triMatrix pos f 2 = (pos (m.heVertex (m.heNext (m.heNext (m.fHalfedge f))))).toEigen := rfl
    have v0 : ∀ x, m.triValues (number vs) x f 0 = x (number vs (m.heVertex (m.fHalfedge f))) := fun _ => rfl
    have v1 : ∀ x, m.triValues (number vs) x f 1 = x (number vs (m.heVertex (m.heNext (m.fHalfedge f)))) := fun _ => rfl
    have v2 : ∀ x, m.triValues (number vs) x f 2 = x (number vs (m.heVertex (m.heNext (m.heNext (m.fHalfedge f))))) := fun _ => rfl
    simp only [r0, r1, r2, v0, v1, v2, diff, t, ← toEigen_sub, toEigen_dot]
    have : m.faceArea len f ≠ 0 := by
      intro h
      rw [h] at big
      norm_num at big
    field_simp
    simp only [V3.dot, V3.sub]
    ring

/-- **C86, against docs/docs/surface/geometry/quantities.md:563** ("On triangle meshes, this polygon Laplacian becomes the standard cotan Laplacian"): if twice
the area of each triangle is at most 3e-7, `simplePolygonLaplacian` is zero. -/
theorem C86_tiny (m : Mesh) (pos : ℕ → V3) (solve : Solver) (hv : m.Valid) (hs : Poly.Solves solve) (ht : m.TriFaces)
    (hb : ∀ h, m.heLive h → ¬ m.ext h → (((pos (m.heVertex (m.heNext h))).sub (pos (m.heVertex h))).cross
      ((pos (m.heVertex (m.heNext (m.heNext h)))).sub (pos (m.heVertex h)))).norm ≤ 3e-7) :
    ∃ L, m.simplePolygonLaplacian pos solve = .ok L ∧ ∀ i < m.nV, ∀ j < m.nV, L i j = 0 := by
  obtain ⟨vs, hs', is, es, fs, R⟩ := hv.ranges
  obtain ⟨F, hF⟩ := hv.faceLoops
  obtain ⟨L, l1, l2⟩ := simpleLaplacian_form (pos := pos) hv hF R solve
  refine ⟨L, l1, fun i hi j hj => ?_⟩
  rw [← pair_single L hi hj, l2]
  generalize (fun a => if a = i then (1 : ℝ) else 0) = x
  generalize (fun a => if a = j then (1 : ℝ) else 0) = y
  refine sum_eq_zero (fun f hf => ?_)
  obtain ⟨h0, x0⟩ := mem_ints.1 (area2_all hv ht hf)
  rw [center_tri hv ht hF hf]
  refine (tri_local f (fun _ p => Poly.simpleStiffness p (Poly.virtualVertex p solve)) (number vs) x y).trans ?_
  show m.triValues (number vs) x f ⬝ᵥ (Poly.simpleStiffness (m.triMatrix pos f) (Poly.virtualVertex (m.triMatrix pos f) solve) *ᵥ m.triValues (number vs) y f) = _
  by_cases hz : Poly.triCross (m.triMatrix pos f) = 0
  · refine Poly.simpleStiffness_tiny (fun k => ?_) _ _
    obtain ⟨q0, q1, q2⟩ := Poly.tri_fan (p := m.triMatrix pos f) (Poly.virtualVertex_spec hs (by norm_num)).1
    have e : Poly.fanCross (m.triMatrix pos f) (Poly.virtualVertex (m.triMatrix pos f) solve) k = 0 := by
      rw [hz, smul_zero] at q0 q1 q2
      fin_cases k
      · exact q0
      · exact q1
      · exact q2
    unfold Poly.fan2
    rw [e, dotProduct_zero, Real.sqrt_zero]
    norm_num
  · rw [Poly.virtualVertex_tri hs hz]
    refine Poly.simpleStiffness_tiny (fun k => ?_) _ _
    rw [Poly.fan2_third, triCross_area, norm_toEigen]
    have : (m.area2 pos (m.fHalfedge f)).norm ≤ 3e-7 := hb _ h0 x0
    norm_num at this ⊢
    linarith

/-! ## Non-vacuity and the witness -/

/-- Some solver. -/
noncomputable def anySolver : Solver := fun A b => if h : ∃ x, A *ᵥ x = b then h.choose else 0

theorem anySolver_solves : Poly.Solves anySolver := by
  intro n A b h
  show A *ᵥ (if h : ∃ x, A *ᵥ x = b then h.choose else 0) = b
  rw [dif_pos h]
  exact h.choose_spec

/-- A right triangle with legs of 1e-4. -/
noncomputable def tinyPos : ℕ → V3
  | 1 => ⟨1e-4, 0, 0⟩
  | 2 => ⟨0, 1e-4, 0⟩
  | _ => ⟨0, 0, 0⟩

theorem lone_tri : lone.TriFaces :=
  fun i hi hx => (by decide +kernel : ∀ i < 6, ¬ lone.ext i → lone.heNext (lone.heNext (lone.heNext i)) = i) i hi.1 hx

theorem lone_int {h : ℕ} (hl : lone.heLive h) (hx : ¬ lone.ext h) : h = 0 ∨ h = 2 ∨ h = 4 := by
  have h1 : h < 6 := hl.1
  have key : ∀ h < 6, ¬ lone.ext h → h = 0 ∨ h = 2 ∨ h = 4 := by
    intro h h6 hx
    have : lone.heFace h < 1 := by
      unfold ext at hx
      have : lone.nFFill = 1 := rfl
      omega
    have t : ∀ h < 6, lone.heFace h < 1 → h = 0 ∨ h = 2 ∨ h = 4 := by decide +kernel
    exact t h h6 this
  exact key h h1 hx

theorem tiny_cross {h : ℕ} (hl : lone.heLive h) (hx : ¬ lone.ext h) :
    ((tinyPos (lone.heVertex (lone.heNext h))).sub (tinyPos (lone.heVertex h))).cross
      ((tinyPos (lone.heVertex (lone.heNext (lone.heNext h)))).sub (tinyPos (lone.heVertex h))) = ⟨0, 0, 1e-8⟩ := by
  rcases lone_int hl hx with rfl | rfl | rfl
  · show ((⟨1e-4, 0, 0⟩ : V3).sub ⟨0, 0, 0⟩).cross ((⟨0, 1e-4, 0⟩ : V3).sub ⟨0, 0, 0⟩) = _
    ext <;> simp only [V3.sub, V3.cross] <;> norm_num
  · show ((⟨0, 1e-4, 0⟩ : V3).sub ⟨1e-4, 0, 0⟩).cross ((⟨0, 0, 0⟩ : V3).sub ⟨1e-4, 0, 0⟩) = _
    ext <;> simp only [V3.sub, V3.cross] <;> norm_num
  · show ((⟨0, 0, 0⟩ : V3).sub ⟨0, 1e-4, 0⟩).cross ((⟨1e-4, 0, 0⟩ : V3).sub ⟨0, 1e-4, 0⟩) = _
    ext <;> simp only [V3.sub, V3.cross] <;> norm_num

/-- **C86 fails on small triangles.** On a right triangle with legs of 1e-4 the simple Laplacian is zero, but the cotangent Laplacian is not. -/
theorem C86_small (solve : Solver) (hs : Poly.Solves solve) : lone.Valid ∧ lone.TriFaces ∧ lone.NonDegenerate tinyPos ∧
    ∃ L len C, lone.simplePolygonLaplacian tinyPos solve = .ok L ∧ lone.edgeLengthsE tinyPos = .ok len ∧ lone.cotanLaplacian len = .ok C ∧
      (∀ i < 3, ∀ j < 3, L i j = 0) ∧ ∃ i < 3, ∃ j < 3, C i j ≠ 0 := by
  have nd : lone.NonDegenerate tinyPos := by
    intro h hl hx
    rw [tiny_cross hl hx]
    intro e
    have := congrArg V3.z e
    norm_num at this
  have nm : V3.norm ⟨0, 0, 1e-8⟩ = 1e-8 := by
    unfold V3.norm
    rw [show (0 : ℝ) * 0 + 0 * 0 + 1e-8 * 1e-8 = 1e-8 ^ 2 by norm_num, Real.sqrt_sq (by norm_num)]
  obtain ⟨L, l1, l2⟩ := C86_tiny lone tinyPos solve lone_valid hs lone_tri (fun h hl hx => by rw [tiny_cross hl hx, nm]; norm_num)
  obtain ⟨P, len, C, p1, e1, c1, c2⟩ := C85_cotan lone tinyPos 1 lone_valid lone_tri nd
  refine ⟨lone_valid, lone_tri, nd, L, len, C, l1, e1, c1, l2, ?_⟩
  by_contra hc
  push Not at hc
  obtain ⟨A, N, a, -, e, -⟩ := flat_single (m := lone) (pos := tinyPos) (c := 1e-8) (by norm_num) lone_valid rfl (by decide +kernel) (l := [0, 2, 4]) rfl
    (by
      have := shoelace_tri (pos := tinyPos) lone_valid lone_tri (f := 0) (by rw [faces_single rfl (by decide +kernel)]; exact mem_singleton_self _)
      refine Eq.trans ?_ (this.trans (tiny_cross (h := lone.fHalfedge 0) (by decide +kernel) (by decide +kernel)))
      rfl) (.inl rfl)
  obtain ⟨P', ind, p1', i1, -, -, -, k⟩ := C85_laplacian lone tinyPos 1 lone_valid one_pos a (by
    intro f _ h
    have : f = 0 := by
      have : lone.nFFill = 1 := rfl
      omega
    subst this
    rw [e]; norm_num)
  rw [p1] at p1'
  injection p1' with p1'
  subst p1'
  have z := (k (fun i => if i = ind 0 then 1 else 0)).1 (fun i hi => sum_eq_zero (fun j hj => by
    rw [c2 i hi j (mem_range.1 hj), hc i hi j (mem_range.1 hj), zero_mul])) 0 (by decide +kernel)
  have hi : ind 0 = 0 ∧ ind 1 = 1 := by
    have : lone.getVertexIndices.toOption.map (fun f => (f 0, f 1)) = some (0, 1) := by decide +kernel
    rw [i1] at this
    simpa [Except.toOption] using this
  have w0 : lone.heVertex 0 = 0 := rfl
  have w1 : lone.heVertex (lone.heNext 0) = 1 := rfl
  rw [w0, w1, hi.1, hi.2] at z
  norm_num at z

/-- The hypotheses of `C86_laplacian` and `C86_mass` are met by the unit square, those of `C86_cotan` by the right triangle. -/
example : ∃ L M, quad.simplePolygonLaplacian unitPos anySolver = .ok L ∧ quad.simplePolygonVertexGalerkinMassMatrix unitPos anySolver = .ok M := by
  obtain ⟨L, ind, q, l, -⟩ := C86_laplacian quad unitPos anySolver quad_valid anySolver_solves
  obtain ⟨M, D, ind, q, k, -⟩ := C86_mass quad unitPos anySolver quad_valid anySolver_solves
  exact ⟨L, M, l, k⟩

example : ∃ L M len C G, tetra.simplePolygonLaplacian tetraPos anySolver = .ok L ∧ tetra.simplePolygonVertexGalerkinMassMatrix tetraPos anySolver = .ok M ∧
    tetra.edgeLengthsE tetraPos = .ok len ∧ tetra.cotanLaplacian len = .ok C ∧ tetra.vertexGalerkinMassMatrix len = .ok G ∧
      (∀ i < tetra.nV, ∀ j < tetra.nV, M i j = G i j) := by
  obtain ⟨L, M, len, C, G, h1, h2, h3, h4, h5, h6, -⟩ := C86_cotan tetra tetraPos anySolver tetra_valid anySolver_solves tetra_tri tetraPos_nonDegenerate
  exact ⟨L, M, len, C, G, h1, h2, h3, h4, h5, h6⟩

end Mesh
end GC
