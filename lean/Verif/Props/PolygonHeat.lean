import Verif.PolygonHeat
import Verif.Props.Polygon
import Verif.Props.PolygonConnection

/-! # C89: the heat method on polygon meshes -/

namespace GC
open Matrix
open Classical Finset

/-- A matrix with no kernel maps onto all vectors. -/
theorem exists_solution {K : Type} [Field K] {n : ℕ} {A : ℕ → ℕ → K} (h : ∀ u : ℕ → K, (∀ i < n, ∑ j ∈ range n, A i j * u j = 0) → ∀ i < n, u i = 0) (b : ℕ → K) :
    ∃ x : ℕ → K, ∀ i < n, ∑ j ∈ range n, A i j * x j = b i := by
  let B : Matrix (_root_.Fin n) (_root_.Fin n) K := Matrix.of fun i j => A i j
  have inj : Function.Injective B.mulVec := by
    intro x y hxy
    have e := h (fun k => if hk : k < n then x ⟨k, hk⟩ - y ⟨k, hk⟩ else 0) (fun i hi => by
      rw [← Fin.sum_univ_eq_sum_range (fun j => A i j * (if hk : j < n then x ⟨j, hk⟩ - y ⟨j, hk⟩ else 0))]
      have := congrFun hxy ⟨i, hi⟩
      simp only [B, Matrix.mulVec, dotProduct, Matrix.of_apply] at this
      simp only [Fin.is_lt, dif_pos, Fin.eta, mul_sub, sum_sub_distrib]
      rw [this, sub_self])
    funext k
    have := e k.1 k.2
    rw [dif_pos k.2] at this
    exact sub_eq_zero.1 this
  obtain ⟨x, hx⟩ := (Matrix.mulVec_surjective_iff_isUnit.2 (Matrix.mulVec_injective_iff_isUnit.1 inj)) (fun i => b i)
  refine ⟨fun k => if hk : k < n then x ⟨k, hk⟩ else 0, fun i hi => ?_⟩
  rw [← Fin.sum_univ_eq_sum_range (fun j => A i j * (if hk : j < n then x ⟨j, hk⟩ else 0))]
  have := congrFun hx ⟨i, hi⟩
  simp only [B, Matrix.mulVec, dotProduct, Matrix.of_apply] at this
  simp only [Fin.is_lt, dif_pos, Fin.eta]
  exact this

/-- The solver solves the systems that have a solution. -/
def LinSolver.Exact {K : Type} [Field K] (S : LinSolver K) : Prop := ∀ n A b, (∃ x : ℕ → K, ∀ i < n, ∑ j ∈ range n, A i j * x j = b i) →
  ∀ i < n, ∑ j ∈ range n, A i j * S n A b j = b i

theorem minCoeff_spec {n : ℕ} (hn : 0 < n) (x : ℕ → ℝ) : (∀ i < n, minCoeff n x ≤ x i) ∧ ∃ i < n, minCoeff n x = x i := by
  have key : ∀ (l : List ℕ) (a : ℝ), (∀ i ∈ l, (l.map x).foldl min a ≤ x i) ∧ (l.map x).foldl min a ≤ a ∧ ((l.map x).foldl min a = a ∨ ∃ i ∈ l, (l.map x).foldl min a = x i) := by
    intro l
    induction l with
    | nil => intro a; simp
    | cons k l ih =>
      intro a
      obtain ⟨h1, h2, h3⟩ := ih (min a (x k))
      simp only [List.map_cons, List.foldl_cons]
      refine ⟨fun i hi => ?_, h2.trans (min_le_left _ _), ?_⟩
      · rcases List.mem_cons.1 hi with rfl | hi
        · exact h2.trans (min_le_right _ _)
        · exact h1 i hi
      · rcases h3 with h3 | ⟨i, hi, h3⟩
        · rcases min_choice a (x k) with c | c
          · left; rw [h3, c]
          · right; exact ⟨k, List.mem_cons_self, by rw [h3, c]⟩
        · exact .inr ⟨i, List.mem_cons_of_mem _ hi, h3⟩
  obtain ⟨h1, -, h3⟩ := key (List.range n) (x 0)
  refine ⟨fun i hi => h1 i (List.mem_range.2 hi), ?_⟩
  rcases h3 with h3 | ⟨i, hi, h3⟩
  · exact ⟨0, hn, h3⟩
  · exact ⟨i, List.mem_range.1 hi, h3⟩

namespace Mesh
variable {m : Mesh} {pos : ℕ → V3} {vs hs is es fs : List ℕ}

/-- Every vertex is the corner of a face. -/
theorem Valid.vertex_corner (hv : m.Valid) {v : ℕ} (h : m.vLive v) : ∃ i ∈ m.ints, m.heVertex i = v := by
  obtain ⟨hl, e⟩ := hv.v_he v h
  by_cases hx : m.ext (m.vHalfedge v)
  · have ht := hv.ext_twin hl hx
    have htl := hv.twin_live _ hl
    refine ⟨m.heNext (twin (m.vHalfedge v)), mem_ints.2 ⟨hv.next_live _ htl, fun c => ht ((hv.ext_next htl).1 c)⟩, ?_⟩
    exact (hv.vertex_vNext hl).trans e
  · exact ⟨_, mem_ints.2 ⟨hl, hx⟩, e⟩

/-- The lumped mass matrix is diagonal with a positive diagonal. -/
theorem polygonMass_form {L : ℕ → List ℕ} (hv : m.Valid) (F : m.FaceLoops L) (R : m.Ranges vs hs is es fs) {A : ℕ → ℝ} (hA : m.faceAreasE pos = .ok A)
    (hp : ∀ f, m.fLive f → f < m.nFFill → 0 < A f) : ∃ d : ℕ → ℝ, m.polygonVertexLumpedMassMatrix pos = .ok (diagonal d) ∧ ∀ i < m.nV, 0 < d i := by
  set lh := fs.flatMap (fun f => ((L f).map m.heVertex).map (fun v => (number vs v, A f / (((L f).map m.heVertex).length : ℝ)))) with hlh
  have eh0 : m.polygonHodge0 pos = .ok (accum (fun p => p.1) (fun p => p.2) lh) := by
    simp only [polygonHodge0, hA, R.iv.1, R.f, bind, Except.bind]
    rw [perFace_ok (G := fun f => ((L f).map m.heVertex).map (fun v => (number vs v, A f / (((L f).map m.heVertex).length : ℝ))))
      (fun f hf => by simp only [F.verts f ((R.mf f).1 hf)])]
  refine ⟨accum (fun p => p.1) (fun p => p.2) lh, by rw [polygonVertexLumpedMassMatrix, eh0]; rfl, fun i hi => ?_⟩
  have pos' : ∀ p ∈ lh, 0 < p.2 := by
    intro p hp'
    obtain ⟨f, hf, h⟩ := List.mem_flatMap.1 hp'
    obtain ⟨v, hv', rfl⟩ := List.mem_map.1 h
    have hf := mem_faces.1 ((R.mf f).1 hf)
    exact div_pos (hp f hf.1 hf.2) (by exact_mod_cast List.length_pos_of_mem hv')
  obtain ⟨v, vl, rfl⟩ := R.iv.2.2.1 i hi
  obtain ⟨h, hh, e⟩ := hv.vertex_corner vl
  have hf := int_face hv hh
  have mem : (number vs v, A (m.heFace h) / (((L (m.heFace h)).map m.heVertex).length : ℝ)) ∈ lh := by
    refine List.mem_flatMap.2 ⟨m.heFace h, (R.mf _).2 hf, List.mem_map.2 ⟨v, List.mem_map.2 ⟨h, (F.mem _ hf h).2 ⟨hh, rfl⟩, e⟩, rfl⟩⟩
  rw [accum_apply]
  refine lt_of_lt_of_le (pos' _ mem) ?_
  refine List.single_le_sum (fun x hx => ?_) _ (List.mem_map.2 ⟨_, mem, by simp⟩)
  obtain ⟨p, hp', rfl⟩ := List.mem_map.1 hx
  split
  · exact (pos' p hp').le
  · exact le_rfl

theorem shortTime_ok (R : m.Ranges vs hs is es fs) {tCoef : ℝ} (ht : 0 ≤ tCoef) : ∃ t, m.shortTime pos tCoef = .ok t ∧ 0 ≤ t := by
  refine ⟨_, by simp only [shortTime, edgeLengthsE, R.e, bind, Except.bind, Except.map]; rfl, ?_⟩
  rw [mul_assoc]
  exact mul_nonneg ht (mul_self_nonneg _)

/-- **C89, heat operator.** On every mesh whose faces have area, for every time, the operator of the scalar heat flow is symmetric and positive definite. -/
theorem C89_heat (m : Mesh) (pos : ℕ → V3) (tCoef lam : ℝ) (hv : m.Valid) (ht : 0 ≤ tCoef) (hl : 0 < lam) {A : ℕ → ℝ} (hA : m.faceAreasE pos = .ok A)
    (hp : ∀ f, m.fLive f → f < m.nFFill → 0 < A f) :
    ∃ H, m.polygonHeatOp pos tCoef lam = .ok H ∧ (∀ i < m.nV, ∀ j < m.nV, H i j = H j i) ∧
      ∀ u : ℕ → ℝ, (∃ i < m.nV, u i ≠ 0) → 0 < ∑ i ∈ range m.nV, ∑ j ∈ range m.nV, u i * H i j * u j := by
  obtain ⟨vs, hs, is, es, fs, R⟩ := hv.ranges
  obtain ⟨F, hF⟩ := hv.faceLoops
  obtain ⟨L, ind, l1, -, l2, -, l3, -⟩ := C85_laplacian m pos lam hv hl hA hp
  obtain ⟨d, d1, d2⟩ := polygonMass_form hv hF R hA hp
  obtain ⟨t, t1, t2⟩ := shortTime_ok (pos := pos) R ht
  refine ⟨fun i j => diagonal d i j + t * L i j, by simp only [polygonHeatOp, t1, d1, l1, bind, Except.bind], fun i hi j hj => ?_, fun u hu => ?_⟩
  · simp only [diagonal, l2 i hi j hj, eq_comm (a := j)]
    split
    · next h => rw [h]
    · rfl
  · have e : ∑ i ∈ range m.nV, ∑ j ∈ range m.nV, u i * (diagonal d i j + t * L i j) * u j =
        ∑ i ∈ range m.nV, d i * u i ^ 2 + t * ∑ i ∈ range m.nV, ∑ j ∈ range m.nV, u i * L i j * u j := by
      rw [mul_sum, ← sum_add_distrib]
      refine sum_congr rfl (fun i hi => ?_)
      rw [mul_sum]
      have : d i * u i ^ 2 = ∑ j ∈ range m.nV, u i * diagonal d i j * u j := by
        rw [sum_eq_single i]
        · simp [diagonal]; ring
        · intro j _ hj; simp [diagonal, Ne.symm hj]
        · intro h; exact absurd hi h
      rw [this, ← sum_add_distrib]
      exact sum_congr rfl (fun j _ => by ring)
    rw [e]
    obtain ⟨i, hi, hne⟩ := hu
    refine add_pos_of_pos_of_nonneg ?_ (mul_nonneg t2 (l3 u))
    refine sum_pos' (fun j hj => mul_nonneg (d2 j (mem_range.1 hj)).le (sq_nonneg _)) ⟨i, mem_range.2 hi, mul_pos (d2 i hi) (by positivity)⟩

/-- A definite matrix has no kernel. -/
theorem definite_kernel {n : ℕ} {H : ℕ → ℕ → ℝ} (h : ∀ u : ℕ → ℝ, (∃ i < n, u i ≠ 0) → 0 < ∑ i ∈ range n, ∑ j ∈ range n, u i * H i j * u j) (u : ℕ → ℝ)
    (h0 : ∀ i < n, ∑ j ∈ range n, H i j * u j = 0) : ∀ i < n, u i = 0 := by
  by_contra c
  push Not at c
  have := h u c
  rw [sum_eq_zero (fun i hi => ?_)] at this
  · exact lt_irrefl _ this
  · have e := h0 i (mem_range.1 hi)
    calc ∑ j ∈ range n, u i * H i j * u j = u i * ∑ j ∈ range n, H i j * u j := by rw [mul_sum]; exact sum_congr rfl (fun j _ => by ring)
      _ = 0 := by rw [e, mul_zero]

theorem definite_unique {n : ℕ} {H : ℕ → ℕ → ℝ} (h : ∀ u : ℕ → ℝ, (∃ i < n, u i ≠ 0) → 0 < ∑ i ∈ range n, ∑ j ∈ range n, u i * H i j * u j) {x y b : ℕ → ℝ}
    (hx : ∀ i < n, ∑ j ∈ range n, H i j * x j = b i) (hy : ∀ i < n, ∑ j ∈ range n, H i j * y j = b i) : ∀ i < n, x i = y i := by
  intro i hi
  have := definite_kernel h (fun j => x j - y j) (fun i hi => by
    simp only [mul_sub, sum_sub_distrib]
    rw [hx i hi, hy i hi, sub_self]) i hi
  exact sub_eq_zero.1 this

/-! ## Extension of scalars -/

theorem foldl_update {β : Type} (k : β → ℕ) (g : β → ℝ) (l : List β) (r : ℕ → ℝ) : (∀ i, i ∉ l.map k → l.foldl (fun r s => Function.update r (k s) (g s)) r i = r i) ∧
    ((l.map k).Nodup → ∀ s ∈ l, l.foldl (fun r s => Function.update r (k s) (g s)) r (k s) = g s) := by
  induction l generalizing r with
  | nil => simp
  | cons a l ih =>
    obtain ⟨h1, h2⟩ := ih (Function.update r (k a) (g a))
    refine ⟨fun i hi => ?_, fun hn s hs => ?_⟩
    · simp only [List.map_cons, List.mem_cons, not_or] at hi
      rw [List.foldl_cons, h1 i hi.2, Function.update_of_ne hi.1]
    · rw [List.map_cons, List.nodup_cons] at hn
      rw [List.foldl_cons]
      rcases List.mem_cons.1 hs with rfl | hs
      · rw [h1 _ hn.1, Function.update_self]
      · exact h2 hn.2 s hs

theorem foldl_const (l : List (ℕ × ℝ)) (c : ℝ) (h : ∀ s ∈ l, s.2 = c) (r q : ℕ → ℝ) (hr : ∀ i, r i = c * q i) (i : ℕ) :
    l.foldl (fun r s => Function.update r s.1 s.2) r i = c * l.foldl (fun r s => Function.update r s.1 1) q i := by
  induction l generalizing r q with
  | nil => exact hr i
  | cons a l ih =>
    rw [List.foldl_cons, List.foldl_cons]
    refine ih (fun s hs => h s (List.mem_cons_of_mem _ hs)) _ _ (fun j => ?_)
    rw [Function.update_apply, Function.update_apply, h a List.mem_cons_self]
    split
    · rw [mul_one]
    · exact hr j

/-- **C89, extension of scalars (partial).** When the sources are different vertices whose indices are below the number of vertices, the result is the quotient of two
heat flows, from the given values and from ones at the sources. If all values agree, the result has this value wherever it is defined. Full statement: for sources at
any vertices; this is false, see `C89_extend_gap`. -/
theorem C89_extend_partial (m : Mesh) (pos : ℕ → V3) (S : LinSolver ℝ) (tCoef lam : ℝ) (hS : S.Exact) (hv : m.Valid) (ht : 0 ≤ tCoef) (hl : 0 < lam) {A : ℕ → ℝ}
    (hA : m.faceAreasE pos = .ok A) (hp : ∀ f, m.fLive f → f < m.nFFill → 0 < A f) (sources : List (ℕ × ℝ)) (hne : sources ≠ []) (hi : ∀ s ∈ sources, s.1 < m.nV) :
    ∃ H ind out, m.polygonHeatOp pos tCoef lam = .ok H ∧ m.getVertexIndices = .ok ind ∧ m.extendPolygonScalars pos S tCoef lam sources = .ok out ∧
      (∀ c, (∀ s ∈ sources, s.2 = c) → ∀ v, m.vLive v → out v = none ∨ out v = some c) ∧
      ((sources.map (·.1)).Nodup → ∃ u w : ℕ → ℝ, (∀ v, m.vLive v → out v = if w (ind v) = 0 then none else some (u (ind v) / w (ind v))) ∧
        (∀ s ∈ sources, ∑ j ∈ range m.nV, H s.1 j * u j = s.2 ∧ ∑ j ∈ range m.nV, H s.1 j * w j = 1) ∧
        ∀ i < m.nV, i ∉ sources.map (·.1) → ∑ j ∈ range m.nV, H i j * u j = 0 ∧ ∑ j ∈ range m.nV, H i j * w j = 0) := by
  obtain ⟨vs, hs, is, es, fs, R⟩ := hv.ranges
  obtain ⟨H, h1, h2, h3⟩ := C89_heat m pos tCoef lam hv ht hl hA hp
  set rv := sources.foldl (fun r s => Function.update r s.1 s.2) (fun _ => (0 : ℝ)) with hrv
  set ro := sources.foldl (fun r s => Function.update r s.1 1) (fun _ => (0 : ℝ)) with hro
  have sv := hS m.nV H rv (exists_solution (definite_kernel h3) rv)
  have so := hS m.nV H ro (exists_solution (definite_kernel h3) ro)
  refine ⟨H, number vs, fun v => if S m.nV H ro (number vs v) = 0 then none else some (S m.nV H rv (number vs v) / S m.nV H ro (number vs v)), h1, R.iv.1, ?_, fun c hc v hl => ?_,
    fun hn => ⟨S m.nV H rv, S m.nV H ro, fun _ _ => rfl, fun s hs => ?_, fun i hi' hni => ?_⟩⟩
  · unfold extendPolygonScalars
    simp only [if_neg hne, h1, R.iv.1, bind, Except.bind]
    rw [if_neg]
    rintro ⟨s, q1, q2⟩
    exact absurd (hi s q1) (by omega)
  · have eq : ∀ i < m.nV, S m.nV H rv i = c * S m.nV H ro i := definite_unique h3 sv (fun i hi => by
      have := so i hi
      rw [hrv, foldl_const sources c hc _ (fun _ => 0) (fun _ => (mul_zero c).symm) i, ← hro, ← this, mul_sum]
      exact sum_congr rfl (fun j _ => by ring))
    simp only
    split
    · exact .inl rfl
    · next h =>
      right
      rw [eq _ (R.iv.2.1 v hl), mul_div_cancel_right₀ _ h]
  · rw [sv _ (hi s hs), so _ (hi s hs)]
    exact ⟨(foldl_update (fun s : ℕ × ℝ => s.1) (fun s => s.2) sources _).2 hn s hs, (foldl_update (fun s : ℕ × ℝ => s.1) (fun _ => 1) sources _).2 hn s hs⟩
  · rw [sv _ hi', so _ hi']
    exact ⟨(foldl_update (fun s : ℕ × ℝ => s.1) (fun s => s.2) sources _).1 i hni, (foldl_update (fun s : ℕ × ℝ => s.1) (fun _ => 1) sources _).1 i hni⟩

/-- **C89, extension of scalars on meshes with deleted vertices (negative).** A source at a live vertex whose index is not below the number of vertices is written
outside of the vector. -/
theorem C89_extend_gap (m : Mesh) (pos : ℕ → V3) (S : LinSolver ℝ) (tCoef lam : ℝ) (hv : m.Valid) (ht : 0 ≤ tCoef) (hl : 0 < lam) {A : ℕ → ℝ}
    (hA : m.faceAreasE pos = .ok A) (hp : ∀ f, m.fLive f → f < m.nFFill → 0 < A f) (sources : List (ℕ × ℝ)) {s : ℕ × ℝ} (hs : s ∈ sources) (hb : m.nV ≤ s.1) :
    m.extendPolygonScalars pos S tCoef lam sources = .error .ub := by
  obtain ⟨vs, hs', is, es, fs, R⟩ := hv.ranges
  obtain ⟨H, h1, -⟩ := C89_heat m pos tCoef lam hv ht hl hA hp
  unfold extendPolygonScalars
  rw [if_neg (List.ne_nil_of_mem hs)]
  simp only [h1, R.iv.1, bind, Except.bind]
  rw [if_pos ⟨s, hs, hb⟩]

/-! ## Distance -/

/-- The faces are planar triangles and quadrilaterals with area. -/
structure PlanarFaces (m : Mesh) (pos : ℕ → V3) (A : ℕ → ℝ) (N : ℕ → V3) : Prop where
  areas : m.faceAreasE pos = .ok A
  normals : m.faceNormalsE pos = .ok N
  area : ∀ f, m.fLive f → f < m.nFFill → 0 < A f
  deg : ∀ f, m.fLive f → f < m.nFFill → m.fDegree f = .ok 3 ∨ m.fDegree f = .ok 4
  planar : ∀ h, m.heLive h → ¬ m.ext h → (N (m.heFace h)).dot ((pos (m.heVertex (m.heNext h))).sub (pos (m.heVertex h))) = 0

/-- `φ` is linear on each face, with the gradient `g`. -/
structure FaceGradient (m : Mesh) (pos : ℕ → V3) (N : ℕ → V3) (φ : ℕ → ℝ) (g : ℕ → V3) : Prop where
  linear : ∃ b : ℕ → ℝ, ∀ h, m.heLive h → ¬ m.ext h → φ (m.heVertex h) = (g (m.heFace h)).dot (pos (m.heVertex h)) + b (m.heFace h)
  tangent : ∀ f, m.fLive f → f < m.nFFill → (N f).dot (g f) = 0

/-- Any two vertices are joined by edges. -/
def AllJoined (m : Mesh) : Prop := ∀ v w, m.vLive v → m.vLive w → Relation.ReflTransGen (fun a b => ∃ h, m.heLive h ∧ m.heVertex h = a ∧ m.heVertex (m.heNext h) = b) v w

theorem PlanarFaces.local {A : ℕ → ℝ} {N : ℕ → V3} {L : ℕ → List ℕ} (P : m.PlanarFaces pos A N) (hv : m.Valid) (hF : m.FaceLoops L) (R : m.Ranges vs hs is es fs) {f : ℕ}
    (hf : f ∈ m.faces) : (N f).toEigen ⬝ᵥ (N f).toEigen = 1 ∧ Poly.vecArea (polyMatrix pos ((L f).map m.heVertex)) = A f • (N f).toEigen ∧
      ∀ i j, (N f).toEigen ⬝ᵥ polyMatrix pos ((L f).map m.heVertex) i = (N f).toEigen ⬝ᵥ polyMatrix pos ((L f).map m.heVertex) j := by
  obtain ⟨A', a1, a2⟩ := faceAreasE_loops (pos := pos) hF R
  rw [P.areas] at a1
  injection a1 with a1
  subst a1
  obtain ⟨N', n1, n2⟩ := faceNormalsE_loops (pos := pos) hF R
  rw [P.normals] at n1
  injection n1 with n1
  subst n1
  obtain ⟨q1, q2⟩ := mem_faces.1 hf
  obtain ⟨l, N', p1, p2, p3, -⟩ := C71_polygon_normal_partial m pos hv f q1 q2 (P.deg f q1 q2)
  rw [hF.nav f hf] at p1
  injection p1 with p1
  rw [← p1] at p3
  rw [n2 f hf] at p2
  injection p2 with p2
  rw [← p2] at p3
  obtain ⟨k1, k2⟩ := normal_local hF hf (a2 f hf) p3 (P.area f q1 q2)
  refine ⟨k1, k2, fun i j => ?_⟩
  refine Poly.cyc_const (φ := fun i => (N f).toEigen ⬝ᵥ polyMatrix pos ((L f).map m.heVertex) i) (fun i => ?_) i j
  show (N f).toEigen ⬝ᵥ (pos (((L f).map m.heVertex).get (Poly.cyc i))).toEigen = (N f).toEigen ⬝ᵥ (pos (((L f).map m.heVertex).get i)).toEigen
  obtain ⟨a, b⟩ := get_cyc hF hf i
  obtain ⟨c, d⟩ := (hF.mem f hf _).1 (List.get_mem (L f) (i.cast (List.length_map _)))
  have := P.planar _ (mem_ints.1 c).1 (mem_ints.1 c).2
  rw [d, ← toEigen_dot, toEigen_sub, dotProduct_sub] at this
  rw [a, b]
  linarith

/-- The Poisson step finds a function from its gradients. -/
theorem poisson_step {A : ℕ → ℝ} {N : ℕ → V3} (P : m.PlanarFaces pos A N) (hv : m.Valid) (R : m.Ranges vs hs is es fs) {lam : ℝ} (hl : 0 < lam) (hJ : m.AllJoined) {φ : ℕ → ℝ}
    {g : ℕ → V3} (G : m.FaceGradient pos N φ g) : ∃ L D, m.polygonLaplacian pos lam = .ok L ∧ m.polygonDivergenceMatrix pos = .ok D ∧
      ∀ Y : ℕ → ℝ, (∀ f ∈ m.faces, ∀ c : _root_.Fin 3, Y (3 * number fs f + c.1) = (g f).toEigen c) → ∀ b : ℕ → ℝ, (∀ i < m.nV, b i = ∑ k ∈ range (3 * m.nF), -D i k * Y k) →
        (∃ x : ℕ → ℝ, ∀ i < m.nV, ∑ j ∈ range m.nV, L i j * x j = b i) ∧
        ∀ x : ℕ → ℝ, (∀ i < m.nV, ∑ j ∈ range m.nV, L i j * x j = b i) → ∀ v w, m.vLive v → m.vLive w → x (number vs v) - x (number vs w) = φ v - φ w := by
  obtain ⟨F, hF⟩ := hv.faceLoops
  obtain ⟨L, l1, l2⟩ := polygonLaplacian_form hv hF R P.areas P.normals lam
  obtain ⟨D, d1, d2⟩ := polygonDivergenceMatrix_form hv hF R P.areas P.normals
  obtain ⟨L', ind, l1', i1, -, -, -, lk⟩ := C85_laplacian m pos lam hv hl P.areas P.area
  rw [l1] at l1'
  injection l1' with l1'
  subst l1'
  rw [R.iv.1] at i1
  injection i1 with i1
  subst i1
  refine ⟨L, D, l1, d1, fun Y hY b hb => ?_⟩
  obtain ⟨off, lin⟩ := G.linear
  obtain ⟨ψ, hψ⟩ : ∃ ψ : ℕ → ℝ, ∀ v, m.vLive v → ψ (number vs v) = φ v := by
    refine ⟨fun k => if h : k < m.nV then φ (R.iv.2.2.1 k h).choose else 0, fun v hl => ?_⟩
    have lt := R.iv.2.1 v hl
    simp only [dif_pos lt]
    have := (R.iv.2.2.1 _ lt).choose_spec
    rw [R.iv.2.inj this.1 hl this.2]
  have sol : ∀ i < m.nV, ∑ j ∈ range m.nV, L i j * ψ j = b i := by
    intro i hi
    have e2 := d2 Y (fun a => if a = i then 1 else 0)
    rw [pair_row D hi Y] at e2
    rw [hb i hi, ← pair_row L hi ψ, l2]
    simp only [neg_mul, sum_neg_distrib]
    rw [e2, ← sum_neg_distrib]
    refine sum_congr rfl (fun f hf => ?_)
    obtain ⟨k1, k2, pl⟩ := P.local hv hF R hf
    obtain ⟨q1, q2⟩ := mem_faces.1 hf
    have al : around (number vs) ψ ((F f).map m.heVertex) = fun i => (g f).toEigen ⬝ᵥ polyMatrix pos ((F f).map m.heVertex) i + off f :=
      around_linear hv hF hf (fun h a e => by
        have hx : ¬ m.ext h := by unfold ext; omega
        rw [hψ _ (hv.vertex_live _ a), lin h a hx, e])
    have tg := G.tangent f q1 q2
    rw [← toEigen_dot] at tg
    rw [al, Poly.laplacian_linear (P.area f q1 q2).ne' k1 k2 pl, tg, zero_smul, sub_zero, neg_mul, dotProduct, mul_sum]
    congr 1
    refine sum_congr rfl (fun c _ => ?_)
    rw [hY f hf c]
    ring
  refine ⟨⟨ψ, sol⟩, fun x hx v w lv lw => ?_⟩
  have ker := (lk (fun j => x j - ψ j)).1 (fun i hi => by
    simp only [mul_sub, sum_sub_distrib]
    rw [hx i hi, sol i hi, sub_self])
  have path : ∀ w, Relation.ReflTransGen (fun a b => ∃ h, m.heLive h ∧ m.heVertex h = a ∧ m.heVertex (m.heNext h) = b) v w →
      x (number vs v) - ψ (number vs v) = x (number vs w) - ψ (number vs w) := by
    intro w h
    induction h with
    | refl => rfl
    | tail _ h ih =>
      obtain ⟨h, hl, rfl, rfl⟩ := h
      rw [ih]; exact ker h hl
  have := path w (hJ v w lv lw)
  rw [hψ v lv, hψ w lw] at this
  linarith

theorem count_accum (k : ℕ → ℕ) (l : List ℕ) (i : ℕ) : accum k (fun _ => 1) l i = ((l.map k).count i : ℝ) := by
  rw [accum_apply]
  induction l with
  | nil => simp
  | cons a l ih =>
    rw [List.map_cons, List.sum_cons, ih, List.map_cons, List.count_cons]
    by_cases c : k a = i
    · simp [c, add_comm]
    · simp [c]

theorem rowV3_eq {Y : ℕ → ℝ} {k : ℕ} {g : V3} {s : ℝ} (h : ∀ c : _root_.Fin 3, Y (3 * k + c.1) = s * g.toEigen c) : rowV3 Y k = g.smul s := by
  have h0 := h 0
  have h1 := h 1
  have h2 := h 2
  simp only [V3.toEigen, Matrix.cons_val, Fin.coe_ofNat_eq_mod, Nat.zero_mod, Nat.one_mod, Nat.reduceMod, add_zero] at h0 h1 h2
  unfold rowV3 V3.smul
  rw [h0, h1, h2, mul_comm s, mul_comm s, mul_comm s]

theorem norm_smul_pos {g : V3} {s : ℝ} (hs : 0 < s) (hg : g.norm = 1) : (g.smul s).norm = s := by
  unfold V3.norm V3.smul at *
  rw [show g.x * s * (g.x * s) + g.y * s * (g.y * s) + g.z * s * (g.z * s) = s ^ 2 * (g.x * g.x + g.y * g.y + g.z * g.z) by ring, Real.sqrt_mul (sq_nonneg s), hg,
    Real.sqrt_sq hs.le, mul_one]

/-- **C89, distance.** On a connected mesh with planar triangles and quadrilaterals: if a function has a gradient of length one on each face and the heat flow from the sources
is on each face a decreasing linear function of it, then the computed distance is this function, shifted so that its least value is zero. -/
theorem C89_distance (m : Mesh) (pos : ℕ → V3) (S : LinSolver ℝ) (tCoef lam : ℝ) (hS : S.Exact) (hv : m.Valid) (ht : 0 ≤ tCoef) (hl : 0 < lam) {A : ℕ → ℝ} {N : ℕ → V3}
    (P : m.PlanarFaces pos A N) (hJ : m.AllJoined) (sources : List ℕ) (hne : sources ≠ []) (hs : ∀ v ∈ sources, m.vLive v) (φ : ℕ → ℝ) (g : ℕ → V3) (G : m.FaceGradient pos N φ g)
    (h1 : ∀ f, m.fLive f → f < m.nFFill → (g f).norm = 1) (a s : ℕ → ℝ) (hs0 : ∀ f, m.fLive f → f < m.nFFill → 0 < s f)
    (hX : ∀ H ind, m.polygonHeatOp pos tCoef lam = .ok H → m.getVertexIndices = .ok ind → ∀ X : ℕ → ℝ,
      (∀ i < m.nV, ∑ j ∈ range m.nV, H i j * X j = (sources.map ind).count i) →
        ∀ h, m.heLive h → ¬ m.ext h → X (ind (m.heVertex h)) = a (m.heFace h) - s (m.heFace h) * φ (m.heVertex h)) :
    ∃ d, m.computePolygonDistance pos S tCoef lam sources = .ok (some d) ∧ (∀ v w, m.vLive v → m.vLive w → d v - d w = φ v - φ w) ∧ (∀ v, m.vLive v → 0 ≤ d v) ∧
      ∃ v, m.vLive v ∧ d v = 0 := by
  obtain ⟨vs, hs', is, es, fs, R⟩ := hv.ranges
  obtain ⟨F, hF⟩ := hv.faceLoops
  obtain ⟨L, D, l1, d1, key⟩ := poisson_step P hv R hl hJ G
  obtain ⟨Gm, g1, g2⟩ := polygonGradientMatrix_form hv hF R P.areas P.normals
  obtain ⟨H, e1, e2, e3⟩ := C89_heat m pos tCoef lam hv ht hl P.areas P.area
  set rho := accum (number vs) (fun _ => 1) sources with hrho
  have so := hS m.nV H rho (exists_solution (definite_kernel e3) rho)
  set X := S m.nV H rho with hXd
  have lin := hX H _ e1 R.iv.1 X (fun i hi => (so i hi).trans (count_accum _ _ _))
  set Y := fun k => ∑ j ∈ range m.nV, Gm k j * X j with hYd
  obtain ⟨off, lin'⟩ := G.linear
  have hY : ∀ f ∈ m.faces, ∀ c : _root_.Fin 3, Y (3 * number fs f + c.1) = s f * (g f).toEigen c := by
    intro f hf c
    obtain ⟨k1, k2, -⟩ := P.local hv hF R hf
    obtain ⟨q1, q2⟩ := mem_faces.1 hf
    have lt := R.if'.2.1 f ⟨q1, q2⟩
    have := g2 (fun a => if a = 3 * number fs f + c.1 then 1 else 0) X
    rw [pair_row Gm (by omega) X, sum_component R hf c (fun f c => (Poly.gradient (polyMatrix pos ((F f).map m.heVertex)) (A f) (N f).toEigen *ᵥ
        around (number vs) X ((F f).map m.heVertex)) c)] at this
    rw [hYd]
    refine this.trans ?_
    have al : around (number vs) X ((F f).map m.heVertex) = fun i => ((g f).smul (-s f)).toEigen ⬝ᵥ polyMatrix pos ((F f).map m.heVertex) i + (a f - s f * off f) :=
      around_linear hv hF hf (fun h b e => by
        have hx : ¬ m.ext h := by unfold ext; omega
        rw [lin h b hx, lin' h b hx, e]
        simp only [V3.dot, V3.smul]
        ring)
    have tg := G.tangent f q1 q2
    rw [← toEigen_dot] at tg
    rw [al, Poly.gradient_linear (P.area f q1 q2).ne' k1 k2, toEigen_smul, dotProduct_smul, tg]
    simp
  have rows : ∀ f ∈ m.faces, rowV3 Y (number fs f) = (g f).smul (s f) := fun f hf => rowV3_eq (hY f hf)
  have nrm : ∀ f ∈ m.faces, (rowV3 Y (number fs f)).norm = s f := fun f hf => by
    obtain ⟨q1, q2⟩ := mem_faces.1 hf
    rw [rows f hf, norm_smul_pos (hs0 f q1 q2) (h1 f q1 q2)]
  have un : unitRows m.nF Y = some fun k => Y k / (rowV3 Y (k / 3)).norm := by
    unfold unitRows
    refine if_neg ?_
    rintro ⟨k, hk, e⟩
    obtain ⟨f, q, rfl⟩ := R.if'.2.2.1 k hk
    rw [nrm f (mem_faces.2 q)] at e
    exact (hs0 f q.1 q.2).ne' e
  have hU : ∀ f ∈ m.faces, ∀ c : _root_.Fin 3, Y (3 * number fs f + c.1) / (rowV3 Y ((3 * number fs f + c.1) / 3)).norm = (g f).toEigen c := by
    intro f hf c
    obtain ⟨q1, q2⟩ := mem_faces.1 hf
    rw [show (3 * number fs f + c.1) / 3 = number fs f by omega, nrm f hf, hY f hf c, mul_div_cancel_left₀ _ (hs0 f q1 q2).ne']
  obtain ⟨p1, p2⟩ := key (fun k => Y k / (rowV3 Y (k / 3)).norm) hU _ (fun _ _ => rfl)
  have p3 := p2 _ (hS m.nV L _ p1)
  obtain ⟨v0, hv0⟩ := List.exists_mem_of_ne_nil _ hne
  have n0 : 0 < m.nV := Nat.lt_of_le_of_lt (Nat.zero_le _) (R.iv.2.1 _ (hs v0 hv0))
  set Z := fun i => ∑ k ∈ range (3 * m.nF), -D i k * (Y k / (rowV3 Y (k / 3)).norm) with hZ
  refine ⟨fun v => S m.nV L Z (number vs v) - minCoeff m.nV (S m.nV L Z), ?_, ?_⟩
  · unfold computePolygonDistance
    rw [if_neg hne]
    simp only [g1, d1, R.iv.1, bind, Except.bind]
    rw [if_neg (by
      rintro ⟨v, q1, q2⟩
      have := R.iv.2.1 v (hs v q1)
      omega)]
    simp only [e1, l1]
    rw [← hrho, ← hXd, ← hYd, un]
  · obtain ⟨c1, c2⟩ := minCoeff_spec n0 (S m.nV L Z)
    refine ⟨fun v w hv' hw => ?_, fun v hv' => ?_, ?_⟩
    · rw [← p3 v w hv' hw]; ring
    · exact sub_nonneg.2 (c1 _ (R.iv.2.1 v hv'))
    · obtain ⟨i, hi, e⟩ := c2
      obtain ⟨v, q, rfl⟩ := R.iv.2.2.1 i hi
      exact ⟨v, q, sub_eq_zero.2 e.symm⟩

/-! ## Signed distance -/

/-- **C89, source of the signed distance.** In a vertex with an orthonormal basis and its normal, a segment contributes its tangent, turned to the left by a right angle. -/
theorem C89_normal (t : V3 × V3) (n d : V3) (h : IsBasis t n) : curveNormal n t d = Complex.I * ⟨t.1.dot d, t.2.dot d⟩ := by
  obtain ⟨⟨a, b, c⟩, ⟨p, q, r⟩⟩ := t
  obtain ⟨h1, h2, h3, rfl⟩ := h
  simp only [V3.dot] at h1 h2 h3
  apply Complex.ext
  · simp only [curveNormal, V3.dot, V3.cross, V3.add, V3.smul, Complex.mul_re, Complex.I_re, Complex.I_im, zero_mul, one_mul, zero_sub]
    linear_combination (-(p * d.x + q * d.y + r * d.z)) * (h1 * (p * p + q * q + r * r) + h2 - (a * p + b * q + c * r) * h3)
  · simp only [curveNormal, V3.dot, V3.cross, V3.add, V3.smul, Complex.mul_im, Complex.I_re, Complex.I_im, zero_mul, one_mul, zero_add]
    linear_combination (a * d.x + b * d.y + c * d.z) * (h1 * (p * p + q * q + r * r) + h2 - (a * p + b * q + c * r) * h3)

/-- The segments of a curve. -/
def segments (l : List ℕ) : List (ℕ × ℕ) := l.zip l.tail

/-- **C89, source of the signed distance.** Each segment of a curve is added at both of its ends; an empty curve is read out of bounds. -/
theorem C89_source (pos : ℕ → V3) (ind : ℕ → ℕ) (normal : ℕ → V3) (basis : ℕ → V3 × V3) (curve : List ℕ) (X0 : ℕ → ℂ) :
    (curve = [] → buildSignedCurveSource pos ind normal basis curve X0 = .error .ub) ∧
    (curve ≠ [] → ∃ X, buildSignedCurveSource pos ind normal basis curve X0 = .ok X ∧ ∀ i, X i = X0 i + ((segments curve).map fun s =>
      (if ind s.1 = i then curveNormal (normal s.1) (basis s.1) ((pos s.2).sub (pos s.1)) else 0) +
        (if ind s.2 = i then curveNormal (normal s.2) (basis s.2) ((pos s.2).sub (pos s.1)) else 0)).sum) := by
  refine ⟨fun h => by subst h; rfl, fun h => ?_⟩
  induction curve generalizing X0 with
  | nil => exact absurd rfl h
  | cons a l ih =>
    cases l with
    | nil => exact ⟨X0, rfl, fun i => by simp [segments]⟩
    | cons b l =>
      obtain ⟨X, h1, h2⟩ := ih (Function.update (Function.update X0 (ind a) (X0 (ind a) + curveNormal (normal a) (basis a) ((pos b).sub (pos a)))) (ind b)
        (Function.update X0 (ind a) (X0 (ind a) + curveNormal (normal a) (basis a) ((pos b).sub (pos a))) (ind b) + curveNormal (normal b) (basis b) ((pos b).sub (pos a))))
        (by simp)
      refine ⟨X, h1, fun i => ?_⟩
      rw [h2 i]
      show _ = X0 i + (((a, b) :: segments (b :: l)).map _).sum
      rw [List.map_cons, List.sum_cons, ← add_assoc]
      congr 1
      simp only [Function.update_apply]
      by_cases c1 : ind a = i <;> by_cases c2 : ind b = i
      · subst c1; simp [c2]; ring
      · subst c1; simp [c2, Ne.symm c2]
      · subst c2; simp [c1, Ne.symm c1]
      · simp [c1, c2, Ne.symm c1, Ne.symm c2]

/-- Total length and integral of a function over the segments of curves. -/
noncomputable def curveLength (pos : ℕ → V3) (curves : List (List ℕ)) : ℝ := ((curves.flatMap segments).map fun s => ((pos s.2).sub (pos s.1)).norm).sum
noncomputable def curveIntegral (pos : ℕ → V3) (u : ℕ → ℝ) (curves : List (List ℕ)) : ℝ :=
  ((curves.flatMap segments).map fun s => ((pos s.2).sub (pos s.1)).norm * ((u s.1 + u s.2) / 2)).sum

theorem averageLoop_ok (pos : ℕ → V3) (ind : ℕ → ℕ) (u : ℕ → ℝ) {curve : List ℕ} (h : curve ≠ []) (s : ℝ × ℝ) : averageLoop pos ind u curve s =
    .ok (s.1 + ((segments curve).map fun s => ((pos s.2).sub (pos s.1)).norm * ((u (ind s.1) + u (ind s.2)) / 2)).sum, s.2 + ((segments curve).map fun s => ((pos s.2).sub (pos s.1)).norm).sum) := by
  induction curve generalizing s with
  | nil => exact absurd rfl h
  | cons a l ih =>
    cases l with
    | nil => simp [segments, averageLoop]
    | cons b l =>
      unfold averageLoop
      rw [ih (by simp)]
      show _ = Except.ok (s.1 + (((a, b) :: segments (b :: l)).map _).sum, s.2 + (((a, b) :: segments (b :: l)).map _).sum)
      rw [List.map_cons, List.sum_cons, List.map_cons, List.sum_cons, ← add_assoc, ← add_assoc]
      congr 3
      norm_num
      ring

/-- **C89, average on curves.** The average of a function on curves is its integral along the segments divided by their length, undefined if the curves have no length. -/
theorem C89_average (pos : ℕ → V3) (ind : ℕ → ℕ) (u : ℕ → ℝ) (curves : List (List ℕ)) :
    (([] ∈ curves) → averageOnCurves pos ind curves u = .error .ub) ∧
    (([] ∉ curves) → averageOnCurves pos ind curves u = .ok (if curveLength pos curves = 0 then none else
      some (curveIntegral pos (fun v => u (ind v)) curves / curveLength pos curves))) := by
  have key : ∀ s : ℝ × ℝ, (([] ∈ curves) → curves.foldlM (fun s c => averageLoop pos ind u c s) s = .error .ub) ∧
      (([] ∉ curves) → curves.foldlM (fun s c => averageLoop pos ind u c s) s = .ok (s.1 + curveIntegral pos (fun v => u (ind v)) curves, s.2 + curveLength pos curves)) := by
    induction curves with
    | nil => intro s; simp [curveIntegral, curveLength, pure, Except.pure]
    | cons a l ih =>
      intro s
      by_cases ha : a = []
      · subst ha
        exact ⟨fun _ => rfl, fun h => absurd List.mem_cons_self h⟩
      · refine ⟨fun h => ?_, fun h => ?_⟩
        · have hl : [] ∈ l := by
            rcases List.mem_cons.1 h with e | e
            · exact absurd e.symm ha
            · exact e
          simp only [List.foldlM_cons, averageLoop_ok pos ind u ha, bind, Except.bind]
          exact (ih _).1 hl
        · simp only [List.foldlM_cons, averageLoop_ok pos ind u ha, bind, Except.bind]
          rw [(ih _).2 (fun e => h (List.mem_cons_of_mem _ e))]
          simp only [curveIntegral, curveLength, List.flatMap_cons, List.map_append, List.sum_append, add_assoc]
  refine ⟨fun h => ?_, fun h => ?_⟩
  · unfold averageOnCurves
    rw [(key _).1 h]; rfl
  · unfold averageOnCurves
    rw [(key _).2 h]
    simp [bind, Except.bind]

/-- **C89, integration of the signed distance.** On a connected mesh with planar triangles and quadrilaterals: when the unit vectors are the negative gradients of a function
(the distance falls in the direction in which the normals of the curve point), the result is this function up to a constant, and its average on the curves is zero. -/
theorem C89_signed (m : Mesh) (pos : ℕ → V3) (S : LinSolver ℝ) (lam : ℝ) (hS : S.Exact) (hv : m.Valid) (hl : 0 < lam) {A : ℕ → ℝ} {N : ℕ → V3}
    (P : m.PlanarFaces pos A N) (hJ : m.AllJoined) (curves : List (List ℕ)) (hc : [] ∉ curves) (hlen : curveLength pos curves ≠ 0) (φ : ℕ → ℝ) (g : ℕ → V3)
    (G : m.FaceGradient pos N φ g) (fInd : ℕ → ℕ) (hf : m.getFaceIndices = .ok fInd) (Y : ℕ → ℝ)
    (hY : ∀ f, m.fLive f → f < m.nFFill → rowV3 Y (fInd f) = (g f).smul (-1)) :
    ∃ d, m.integrateSigned pos S lam curves Y = .ok (some d) ∧ (∀ v w, m.vLive v → m.vLive w → d v - d w = φ v - φ w) ∧ curveIntegral pos d curves = 0 := by
  obtain ⟨vs, hs', is, es, fs, R⟩ := hv.ranges
  rw [R.if'.1] at hf
  injection hf with hf
  subst hf
  obtain ⟨L, D, l1, d1, key⟩ := poisson_step P hv R hl hJ G
  have hY' : ∀ f ∈ m.faces, ∀ c : _root_.Fin 3, -Y (3 * number fs f + c.1) = (g f).toEigen c := by
    intro f hf c
    obtain ⟨q1, q2⟩ := mem_faces.1 hf
    have e := hY f q1 q2
    simp only [rowV3, V3.smul, V3.mk.injEq, mul_neg, mul_one] at e
    obtain ⟨e0, e1, e2⟩ := e
    fin_cases c
    · show -Y (3 * number fs f + 0) = (g f).x; rw [add_zero, e0, neg_neg]
    · show -Y (3 * number fs f + 1) = (g f).y; rw [e1, neg_neg]
    · show -Y (3 * number fs f + 2) = (g f).z; rw [e2, neg_neg]
  obtain ⟨p1, p2⟩ := key (fun k => -Y k) hY' (fun i => ∑ k ∈ range (3 * m.nF), D i k * Y k) (fun i _ => sum_congr rfl (fun k _ => by ring))
  have p3 := p2 _ (hS m.nV L _ p1)
  set x := S m.nV L (fun i => ∑ k ∈ range (3 * m.nF), D i k * Y k) with hx
  set c := curveIntegral pos (fun v => x (number vs v)) curves / curveLength pos curves with hcd
  refine ⟨fun v => x (number vs v) - c, ?_, fun v w hv' hw => ?_, ?_⟩
  · unfold integrateSigned
    simp only [R.iv.1, d1, l1, bind, Except.bind]
    rw [← hx, (C89_average pos (number vs) x curves).2 hc, if_neg hlen]
    rfl
  · rw [← p3 v w hv' hw]; ring
  · have : ∀ l : List (ℕ × ℕ), (l.map fun s => ((pos s.2).sub (pos s.1)).norm * ((x (number vs s.1) - c + (x (number vs s.2) - c)) / 2)).sum =
        (l.map fun s => ((pos s.2).sub (pos s.1)).norm * ((x (number vs s.1) + x (number vs s.2)) / 2)).sum - c * (l.map fun s => ((pos s.2).sub (pos s.1)).norm).sum := by
      intro l
      induction l with
      | nil => simp
      | cons a l ih => simp only [List.map_cons, List.sum_cons, ih]; ring
    unfold curveIntegral
    rw [this]
    show curveIntegral pos (fun v => x (number vs v)) curves - c * curveLength pos curves = 0
    rw [hcd, div_mul_cancel₀ _ hlen, sub_self]

/-- **C89, vectors (negative).** On every mesh with a face that is not a triangle neither the transport of vectors nor the signed distance has a result. -/
theorem C89_vector_throws (m : Mesh) (pos : ℕ → V3) (nan : V2) (S : LinSolver ℂ) (tCoef lam : ℝ) (hv : m.Valid) {h : ℕ} (hl : m.heLive h) (hx : ¬ m.ext h)
    (h3 : m.heNext (m.heNext (m.heNext h)) ≠ h) (ht : 0 ≤ tCoef) {A : ℕ → ℝ} (hA : m.faceAreasE pos = .ok A) (hp : ∀ f, m.fLive f → f < m.nFFill → 0 < A f) :
    (∀ sources, m.transportPolygonVectors pos S nan tCoef lam sources = .error .throw) ∧ ∀ curves X, m.signedHeatFlow pos S nan tCoef lam curves ≠ .ok X := by
  obtain ⟨vs, hs, is, es, fs, R⟩ := hv.ranges
  obtain ⟨F, hF⟩ := hv.faceLoops
  obtain ⟨t, t1, -⟩ := shortTime_ok (pos := pos) R ht
  obtain ⟨d, d1, -⟩ := polygonMass_form hv hF R hA hp
  have op : m.polygonVectorOp pos nan tCoef lam = .error .throw := by
    unfold polygonVectorOp
    simp only [t1, d1, C87_throws m pos nan lam hv hl hx h3, bind, Except.bind]
  refine ⟨fun sources => ?_, fun curves X e => ?_⟩
  · unfold transportPolygonVectors
    simp only [op, bind, Except.bind, ite_self]
  · unfold signedHeatFlow at e
    simp only [op, bind, Except.bind] at e
    split at e
    · cases e
    · split at e
      · cases e
      · split at e
        · cases e
        · split at e
          · cases e
          · split at e <;> cases e

/-! ## Examples -/

theorem _root_.GC.LinSolver.exists_exact (K : Type) [Field K] : ∃ S : LinSolver K, S.Exact :=
  ⟨fun n A b => if h : ∃ x : ℕ → K, ∀ i < n, ∑ j ∈ range n, A i j * x j = b i then h.choose else 0, fun n A b h => by simp only [dif_pos h]; exact h.choose_spec⟩

example : ∃ H, quad.polygonHeatOp unitPos 1 1 = .ok H ∧ ∀ i < 4, ∀ j < 4, H i j = H j i := by
  obtain ⟨A, N, a, n, e⟩ := quad_geometry
  obtain ⟨H, h1, h2, -⟩ := C89_heat quad unitPos 1 1 quad_valid zero_le_one one_pos a (quad_area e)
  exact ⟨H, h1, h2⟩

/-- Two sources with the value 3 in the unit square. -/
example : ∃ (S : LinSolver ℝ) (out : ℕ → Option ℝ), quad.extendPolygonScalars unitPos S 1 1 [(0, 3), (2, 3)] = .ok out ∧ ∀ v, quad.vLive v → out v = none ∨ out v = some 3 := by
  obtain ⟨S, hS⟩ := LinSolver.exists_exact ℝ
  obtain ⟨A, N, a, n, e⟩ := quad_geometry
  obtain ⟨H, ind, out, -, -, h1, h2, -⟩ := C89_extend_partial quad unitPos S 1 1 hS quad_valid zero_le_one one_pos a (quad_area e) [(0, 3), (2, 3)] (by simp)
    (by have : quad.nV = 4 := rfl
        simp [this])
  exact ⟨S, out, h1, h2 3 (by simp)⟩

/-- A triangle whose vertices are 1, 2 and 3; the vertex 0 is deleted. -/
def gapTriangle : Mesh := { ofLists [2, 5, 4, 1, 0, 3] [1, 2, 2, 3, 3, 1] [0, 1, 0, 1, 0, 1] [INV, 0, 2, 4] [0, 1] 1 with nV := 3 }

theorem gapTriangle_valid : gapTriangle.Valid := valid_of_check (by decide +kernel)

example (S : LinSolver ℝ) : gapTriangle.vLive 3 ∧ gapTriangle.extendPolygonScalars unitPos S 1 1 [(3, 1)] = .error .ub := by
  obtain ⟨A, N, a, n, e1, e2⟩ := flat_single one_pos gapTriangle_valid rfl (by decide +kernel) (l := [0, 2, 4]) rfl (pos := unitPos)
    (by unfold shoelace; simp only [List.foldl_cons, List.foldl_nil]
        simp [gapTriangle, ofLists, unitPos, V3.add, V3.cross]) (.inl rfl)
  refine ⟨by decide +kernel, C89_extend_gap gapTriangle unitPos S 1 1 gapTriangle_valid zero_le_one one_pos a (fun f _ h => ?_) [(3, 1)] List.mem_cons_self (Nat.le_refl 3)⟩
  have : f = 0 := by
    have : gapTriangle.nFFill = 1 := rfl
    omega
  rw [this, e1]
  norm_num

theorem lone_planar : ∃ A N, lone.PlanarFaces lonePos A N ∧ N 0 = ⟨0, 0, 1⟩ := by
  obtain ⟨A, N, a, n, e1, e2⟩ := lone_geometry
  have z0 : ∀ v, (lonePos v).z = 0 := by
    intro v; unfold lonePos; split <;> rfl
  have f0 : ∀ f, f < lone.nFFill → f = 0 := fun f h => by
    have : lone.nFFill = 1 := rfl
    omega
  refine ⟨A, N, ⟨a, n, fun f _ h => ?_, fun f _ h => ?_, fun h _ hx => ?_⟩, e2⟩
  · rw [f0 f h, e1]; norm_num
  · rw [f0 f h]; exact .inl rfl
  · rw [f0 (lone.heFace h) (by unfold ext at hx; omega), e2]
    simp [V3.dot, V3.sub, z0]

theorem lone_joined : lone.AllJoined := by
  intro v w hv hw
  have lt : ∀ v, lone.vLive v → v < 3 := fun v h => h.1
  have s : ∀ h, lone.heLive h → Relation.ReflTransGen (fun a b => ∃ h, lone.heLive h ∧ lone.heVertex h = a ∧ lone.heVertex (lone.heNext h) = b)
      (lone.heVertex h) (lone.heVertex (lone.heNext h)) := fun h hl => .single ⟨h, hl, rfl, rfl⟩
  have s01 := s 0 (by decide +kernel)
  have s10 := s 1 (by decide +kernel)
  have s12 := s 2 (by decide +kernel)
  have s21 := s 3 (by decide +kernel)
  have s20 := s 4 (by decide +kernel)
  have s02 := s 5 (by decide +kernel)
  have h1 := lt v hv
  have h2 := lt w hw
  interval_cases v <;> interval_cases w
  all_goals first | exact .refl | exact s01 | exact s10 | exact s12 | exact s21 | exact s20 | exact s02

/-- Every function on the triangle is linear. -/
theorem lone_linear {N : ℕ → V3} (hN : N 0 = ⟨0, 0, 1⟩) (φ : ℕ → ℝ) : lone.FaceGradient lonePos N φ (fun _ => ⟨φ 1 - φ 0, φ 2 - φ 0, 0⟩) := by
  refine ⟨⟨fun _ => φ 0, fun h hl _ => ?_⟩, fun f _ h => ?_⟩
  · have lt : h < 6 := hl.1
    interval_cases h
    all_goals simp [lone, ofLists, lonePos, V3.dot]
  · have : f = 0 := by
      have : lone.nFFill = 1 := rfl
      omega
    rw [this, hN]
    simp [V3.dot]

/-- Distance from a corner of a triangle. -/
example : ∃ (S : LinSolver ℝ) (d : ℕ → ℝ), lone.computePolygonDistance lonePos S 1 1 [0] = .ok (some d) ∧ ∃ v, lone.vLive v ∧ d v = 0 := by
  obtain ⟨S, hS⟩ := LinSolver.exists_exact ℝ
  obtain ⟨A, N, P, n⟩ := lone_planar
  obtain ⟨vs, hs, is, es, fs, R⟩ := lone_valid.ranges
  obtain ⟨F, hF⟩ := lone_valid.faceLoops
  obtain ⟨H, e1, e2, e3⟩ := C89_heat lone lonePos 1 1 lone_valid zero_le_one one_pos P.areas P.area
  obtain ⟨t, t1, -⟩ := shortTime_ok (pos := lonePos) R (zero_le_one (α := ℝ))
  obtain ⟨M, m1, m2⟩ := polygonMass_form lone_valid hF R P.areas P.area
  obtain ⟨L, ind, l1, i1, -, l2, -, -⟩ := C85_laplacian lone lonePos 1 lone_valid one_pos P.areas P.area
  rw [R.iv.1] at i1
  injection i1 with i1
  subst i1
  set ind := number vs with hind
  set rho : ℕ → ℝ := fun i => (([0] : List ℕ).map ind).count i with hrho
  obtain ⟨X, hX⟩ := exists_solution (definite_kernel e3) rho
  have e1' : lone.polygonHeatOp lonePos 1 1 = .ok fun i j => diagonal M i j + t * L i j := by
    simp only [polygonHeatOp, t1, m1, l1, bind, Except.bind]
  have hH : H = fun i j => diagonal M i j + t * L i j := by
    rw [e1] at e1'
    injection e1'
  set u : ℕ → ℝ := fun v => X (ind v) with hu
  have l0 : lone.vLive 0 := by decide +kernel
  have l1' : lone.vLive 1 := by decide +kernel
  have l2' : lone.vLive 2 := by decide +kernel
  have nc : ¬ (u 1 = u 0 ∧ u 2 = u 0) := by
    rintro ⟨c1, c2⟩
    have cst : ∀ j < lone.nV, X j = u 0 := by
      intro j hj
      obtain ⟨v, hv, rfl⟩ := R.iv.2.2.1 j hj
      have : v < 3 := hv.1
      interval_cases v
      · rfl
      · exact c1
      · exact c2
    have row : ∀ i < lone.nV, M i * u 0 = rho i := by
      intro i hi
      rw [← hX i hi, hH]
      have : ∀ j ∈ range lone.nV, (diagonal M i j + t * L i j) * X j = (diagonal M i j + t * L i j) * u 0 := fun j hj => by rw [cst j (mem_range.1 hj)]
      rw [sum_congr rfl this, ← sum_mul, sum_add_distrib, ← mul_sum, l2 i hi, mul_zero, add_zero]
      congr 1
      rw [sum_eq_single i (fun b _ hb => by simp [diagonal, Ne.symm hb]) (fun h => absurd (mem_range.2 hi) h)]
      simp [diagonal]
    have r0 := row _ (R.iv.2.1 0 l0)
    have r1 := row _ (R.iv.2.1 1 l1')
    have ne : ind 0 ≠ ind 1 := fun e => absurd (R.iv.2.inj l0 l1' e) (by decide)
    have c0 : rho (ind 0) = 1 := by simp [hrho]
    have c1 : rho (ind 1) = 0 := by
      rw [hrho]
      show (((List.count (ind 1) [ind 0] : ℕ)) : ℝ) = 0
      rw [List.count_singleton, if_neg (by simpa using ne), Nat.cast_zero]
    have r0' : M (ind 0) * u 0 = 1 := r0.trans c0
    have r1' : M (ind 1) * u 0 = 0 := r1.trans c1
    rcases mul_eq_zero.1 r1' with r | r
    · exact (m2 _ (R.iv.2.1 1 l1')).ne' r
    · rw [r, mul_zero] at r0'
      exact zero_ne_one r0'
  set q : ℝ := Real.sqrt ((u 1 - u 0) * (u 1 - u 0) + (u 2 - u 0) * (u 2 - u 0)) with hq
  have q0 : 0 < q := by
    refine Real.sqrt_pos.2 ?_
    by_contra c
    refine nc ⟨?_, ?_⟩ <;> nlinarith [mul_self_nonneg (u 1 - u 0), mul_self_nonneg (u 2 - u 0)]
  obtain ⟨d, d1, -, -, d2⟩ := C89_distance lone lonePos S 1 1 hS lone_valid zero_le_one one_pos P lone_joined [0] (by simp) (by simpa using l0) (fun v => -u v / q) _ (lone_linear n _)
    (fun f _ _ => by
      show Real.sqrt _ = 1
      rw [Real.sqrt_eq_one]
      have : q * q = (u 1 - u 0) * (u 1 - u 0) + (u 2 - u 0) * (u 2 - u 0) :=
        Real.mul_self_sqrt (add_nonneg (mul_self_nonneg _) (mul_self_nonneg _))
      field_simp
      linarith)
    (fun _ => 0) (fun _ => q) (fun _ _ _ => q0) (fun H' ind' a b X' c h _ _ => by
      rw [e1] at a
      rw [R.iv.1] at b
      injection a with a
      injection b with b
      subst a b
      have := definite_unique e3 c hX _ (R.iv.2.1 _ (lone_valid.vertex_live h ‹_›))
      rw [this]
      field_simp
      simp [hu, hind])
  exact ⟨S, d, d1, d2⟩

/-- Signed distance from the left side of a triangle: the unit vectors point to the left. -/
example : ∃ (S : LinSolver ℝ) (d : ℕ → ℝ), lone.integrateSigned lonePos S 1 [[0, 2]] (fun k => if k = 0 then -1 else 0) = .ok (some d) ∧ d 1 - d 0 = 1 ∧ d 2 - d 0 = 0 := by
  obtain ⟨S, hS⟩ := LinSolver.exists_exact ℝ
  obtain ⟨A, N, P, n⟩ := lone_planar
  have i0 : lone.getFaceIndices = .ok (number [0]) := rfl
  obtain ⟨d, d1, d2, -⟩ := C89_signed lone lonePos S 1 hS lone_valid one_pos P lone_joined [[0, 2]] (by simp) (by simp [curveLength, segments, lonePos, V3.sub, V3.norm])
    (fun v => (lonePos v).x) _ (lone_linear n _) _ i0 (fun k => if k = 0 then -1 else 0) (fun f _ h => by
      have : f = 0 := by
        have : lone.nFFill = 1 := rfl
        omega
      subst this
      have : number [0] 0 = 0 := rfl
      rw [this]
      simp [rowV3, lonePos, V3.smul])
  exact ⟨S, d, d1, by rw [d2 1 0 (by decide +kernel) (by decide +kernel)]; simp [lonePos], by rw [d2 2 0 (by decide +kernel) (by decide +kernel)]; simp [lonePos]⟩

/-- A segment along the first direction of the basis points its normal in the second one. -/
example : curveNormal ⟨0, 0, 1⟩ (⟨1, 0, 0⟩, ⟨0, 1, 0⟩) ⟨1, 0, 0⟩ = Complex.I := by
  rw [C89_normal _ _ _ ⟨by simp [V3.dot], by simp [V3.dot], by simp [V3.dot], by simp [V3.cross]⟩]
  apply Complex.ext <;> simp [V3.dot]

example : averageOnCurves lonePos id [[1, 0, 2]] (fun v => (v : ℝ)) = .ok (some (3 / 4)) := by
  rw [(C89_average lonePos id _ [[1, 0, 2]]).2 (by simp)]
  simp [curveLength, curveIntegral, segments, lonePos, V3.sub, V3.norm]
  norm_num

example (S : LinSolver ℂ) : quad.transportPolygonVectors unitPos S ⟨0, 0⟩ 1 1 [(0, ⟨1, 0⟩)] = .error .throw := by
  obtain ⟨A, N, a, n, e⟩ := quad_geometry
  exact (C89_vector_throws quad unitPos ⟨0, 0⟩ S 1 1 quad_valid (h := 0) (by decide +kernel) (by decide +kernel) (by decide) zero_le_one a (quad_area e)).1 _

end Mesh
end GC
