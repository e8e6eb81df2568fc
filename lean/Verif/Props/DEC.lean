import Verif.Props.Laplacian

/-! # C66: mass matrices and the operators of discrete exterior calculus -/

namespace GC
open Classical Finset

namespace Mesh
variable {m : Mesh} {len : ℕ → ℝ} {vs hs is es fs : List ℕ}

theorem edge_live (hv : m.Valid) {i : ℕ} (h1 : m.heLive i) : m.heLive (2 * heEdge i) := by
  rcases Nat.mod_two_eq_zero_or_one i with h | h
  · rwa [show 2 * heEdge i = i by unfold heEdge; omega]
  · have := hv.twin_live _ h1
    have e : i = 2 * (i / 2) + 1 := by omega
    rw [e, ← twin_two_mul, twin_twin] at this
    exact this

theorem vertexDualAreas_ok (hv : m.Valid) (R : m.Ranges vs hs is es fs) :
    ∃ A, m.vertexDualAreas len = .ok A ∧ ∀ v, A v = ∑ i ∈ m.ints with m.heVertex i = v, m.faceArea len (m.heFace i) / 3 := by
  obtain ⟨A, a1, a2⟩ := faceAreas_ok (len := len) R
  obtain ⟨r, -, r1, -, r3⟩ := nested_faces hv R
  refine ⟨_, by simp only [vertexDualAreas, bind, Except.bind, a1, R.f, r1]; rfl, fun v => ?_⟩
  rw [accum_apply, List.map_map, r3, sum_filter]
  refine sum_congr rfl (fun i hi => ?_)
  simp only [Function.comp]
  rw [a2, if_pos (int_face hv hi)]

theorem faceArea_he (hv : m.Valid) (ht : m.TriFaces) {i : ℕ} (hi : i ∈ m.ints) : m.faceArea len (m.heFace i) =
    triangleArea (len (heEdge i)) (len (heEdge (m.heNext i))) (len (heEdge (m.heNext (m.heNext i)))) := by
  obtain ⟨h1, h2⟩ := mem_ints.1 hi
  obtain ⟨l0, e0⟩ := hv.f_he _ (hv.face_live i h1)
  have t := ht i h1 h2
  unfold faceArea
  rcases hv.tri_mem h1 l0 t e0 with h | h | h
  · rw [h]
  · simp only [h, t]; rw [← triangleArea_rot]
  · simp only [h, t]; rw [← triangleArea_rot, ← triangleArea_rot]

theorem faceArea_pos (hv : m.Valid) (hm : m.Metric len) {f : ℕ} (hf : f ∈ m.faces) : 0 < m.faceArea len f := by
  obtain ⟨q1, q2⟩ := mem_faces.1 hf
  obtain ⟨l0, e0⟩ := hv.f_he f q1
  exact (hm _ l0 (face_not_ext hv (by rw [e0]; exact q2))).area_pos

/-- The total area by corners. -/
theorem area_total (hv : m.Valid) (ht : m.TriFaces) :
    ∑ i ∈ m.ints, m.faceArea len (m.heFace i) / 3 = ∑ f ∈ m.faces, m.faceArea len f := by
  rw [← sum_faces hv ht]
  refine sum_congr rfl (fun f hf => ?_)
  obtain ⟨q1, q2⟩ := mem_faces.1 hf
  obtain ⟨l0, e0⟩ := hv.f_he f q1
  rw [hv.face_next (hv.next_live _ l0), hv.face_next l0, e0]; ring

/-- The running counter of the lumped mass matrix is the dense index. -/
theorem counter_eq (A : ℕ → ℝ) {l : List ℕ} (nd : l.Nodup) {x : ℕ} (hx : x ∈ l) :
    (l.foldl (fun (s : (ℕ → ℝ) × ℕ) v => (Function.update s.1 s.2 (A v), s.2 + 1)) (fun _ => 0, 0)).1 (number l x) = A x := by
  have gen : ∀ (l : List ℕ) (d : ℕ → ℝ) (c : ℕ),
      (∀ j, j < c → (l.foldl (fun (s : (ℕ → ℝ) × ℕ) v => (Function.update s.1 s.2 (A v), s.2 + 1)) (d, c)).1 j = d j) ∧
      ∀ j (h : j < l.length), (l.foldl (fun (s : (ℕ → ℝ) × ℕ) v => (Function.update s.1 s.2 (A v), s.2 + 1)) (d, c)).1 (c + j) = A l[j] := by
    intro l
    induction l with
    | nil => intro d c; exact ⟨fun _ _ => rfl, fun j h => absurd h (by simp)⟩
    | cons a l ih =>
      intro d c
      obtain ⟨i1, i2⟩ := ih (Function.update d c (A a)) (c + 1)
      refine ⟨fun j h => ?_, fun j h => ?_⟩
      · rw [List.foldl_cons, i1 j (by omega), Function.update_of_ne (by omega)]
      · rw [List.foldl_cons]
        cases j with
        | zero =>
          exact (i1 c (by omega)).trans (Function.update_self ..)
        | succ j =>
          rw [show c + (j + 1) = c + 1 + j by omega, i2 j (by simpa using h)]; rfl
  obtain ⟨j, hj, rfl⟩ := List.getElem_of_mem hx
  rw [number_get nd j hj]
  have := (gen l (fun _ => 0) 0).2 j hj
  rwa [Nat.zero_add] at this

/-- **C66, dual areas.** The dual area of a vertex is a third of the areas of its corners' faces, cached and immediate version agree,
and the dual areas are positive and sum to the total area. -/
theorem C66_dual_areas (m : Mesh) (len : ℕ → ℝ) (hv : m.Valid) (ht : m.TriFaces) (hm : m.Metric len) :
    ∃ A B, m.faceAreas len = .ok A ∧ m.vertexDualAreas len = .ok B ∧
      (∀ v, m.vLive v → B v = (∑ h ∈ range m.nHeFill with m.heLive h ∧ ¬ m.ext h ∧ m.heVertex h = v, A (m.heFace h)) / 3 ∧ 0 < B v ∧
        m.vertexDualArea len v = .ok (B v)) ∧
      ∑ v ∈ range m.nVFill with m.vLive v, B v = ∑ f ∈ range m.nFFill with m.fLive f, A f := by
  obtain ⟨vs, hs, is, es, fs, R⟩ := hv.ranges
  obtain ⟨A, a1, a2⟩ := faceAreas_ok (len := len) R
  obtain ⟨B, b1, b2⟩ := vertexDualAreas_ok (len := len) hv R
  have set_eq : ∀ v, ({i ∈ m.ints | m.heVertex i = v} : Finset ℕ) = {h ∈ range m.nHeFill | m.heLive h ∧ ¬ m.ext h ∧ m.heVertex h = v} := by
    intro v
    ext i; simp only [mem_filter, mem_ints, mem_range]
    constructor
    · rintro ⟨⟨a, b⟩, c⟩; exact ⟨a.1, a, b, c⟩
    · rintro ⟨-, a, b, c⟩; exact ⟨⟨a, b⟩, c⟩
  refine ⟨A, B, a1, b1, fun v hl => ⟨?_, ?_, ?_⟩, ?_⟩
  · rw [b2, ← set_eq, sum_div]
    refine sum_congr rfl (fun i hi => ?_)
    rw [a2, if_pos (int_face hv (mem_filter.1 hi).1)]
  · rw [b2]
    obtain ⟨h1, h2⟩ := vHe_int' hv hl
    refine sum_pos (fun i hi => ?_) ⟨_, mem_filter.2 ⟨h1, h2⟩⟩
    have := faceArea_pos hv hm (int_face hv (mem_filter.1 hi).1)
    positivity
  · obtain ⟨l, -, nd, h2, -, -, -, -, -, h3⟩ := C49_vertex_outgoing m hv v hl
    unfold vertexDualArea
    rw [h3]
    show Except.ok _ = Except.ok _
    rw [foldl_add, zero_add, List.map_map, sum_of_nodup (nd.filter _) (S := {i ∈ m.ints | m.heVertex i = v}), b2, ← sum_div]
    · rfl
    · intro i
      rw [List.mem_filter, h2, mem_filter, mem_ints, decide_eq_true_eq]
      unfold ext
      constructor
      · rintro ⟨⟨a, b⟩, c⟩; exact ⟨⟨a, by omega⟩, b⟩
      · rintro ⟨⟨a, b⟩, c⟩; exact ⟨⟨a, c⟩, by omega⟩
  · have eV : ({v ∈ range m.nVFill | m.vLive v} : Finset ℕ) = m.verts := rfl
    have eF : ({f ∈ range m.nFFill | m.fLive f} : Finset ℕ) = m.faces := rfl
    rw [eV, eF, sum_congr rfl (fun v _ => (b2 v).trans (sum_filter _ _)), sum_verts hv, area_total hv ht]
    exact sum_congr rfl (fun f hf => by rw [a2, if_pos hf])

/-- The bilinear form of the Galerkin mass matrix. -/
theorem galerkin_form (hv : m.Valid) (R : m.Ranges vs hs is es fs) :
    ∃ M, m.vertexGalerkinMassMatrix len = .ok M ∧ ∀ x y : ℕ → ℝ, ∑ i ∈ range m.nV, ∑ j ∈ range m.nV, x i * M i j * y j =
      ∑ f ∈ m.faces, (
        let a := number vs (m.heVertex (m.fHalfedge f))
        let b := number vs (m.heVertex (m.heNext (m.fHalfedge f)))
        let c := number vs (m.heVertex (m.heNext (m.heNext (m.fHalfedge f))))
        m.faceArea len f / 12 * ((x a + x b + x c) * (y a + y b + y c) + x a * y a + x b * y b + x c * y c)) := by
  obtain ⟨A, a1, a2⟩ := faceAreas_ok (len := len) R
  set T := fs.flatMap (fun f =>
    let area := A f
    let he := m.fHalfedge f
    let a := number vs (m.heVertex he)
    let b := number vs (m.heVertex (m.heNext he))
    let c := number vs (m.heVertex (m.heNext (m.heNext he)))
    [(a, a, area / 6), (a, b, area / 12), (a, c, area / 12),
     (b, b, area / 6), (b, c, area / 12), (b, a, area / 12),
     (c, c, area / 6), (c, a, area / 12), (c, b, area / 12)]) with hT
  have bd : ∀ t ∈ T, t.1 < m.nV ∧ t.2.1 < m.nV := by
    intro t ht
    obtain ⟨f, hf, h⟩ := List.mem_flatMap.1 ht
    obtain ⟨q1, q2⟩ := mem_faces.1 ((R.mf f).1 hf)
    obtain ⟨l0, e0⟩ := hv.f_he f q1
    have l1 := hv.next_live _ l0
    have b1 := R.iv.2.1 _ (hv.vertex_live _ l0)
    have b2 := R.iv.2.1 _ (hv.vertex_live _ l1)
    have b3 := R.iv.2.1 _ (hv.vertex_live _ (hv.next_live _ l1))
    simp only [List.mem_cons, List.not_mem_nil, or_false] at h
    rcases h with rfl | rfl | rfl | rfl | rfl | rfl | rfl | rfl | rfl <;> exact ⟨by assumption, by assumption⟩
  refine ⟨entry T, ?_, fun x y => ?_⟩
  · simp only [vertexGalerkinMassMatrix, bind, Except.bind, a1, R.iv.1, R.f]
    exact setFromTriplets_ok bd
  · rw [entry_pair bd, hT, sum_flatMap, sum_of_nodup R.nf R.mf]
    refine sum_congr rfl (fun f hf => ?_)
    simp only [List.map_cons, List.map_nil, List.sum_cons, List.sum_nil]
    rw [a2, if_pos hf]
    ring

/-- **C66, vertex mass matrices.** The lumped mass matrix is diagonal with the dual areas in index order. The Galerkin mass matrix is
symmetric, its row sums are the diagonal of the lumped matrix, its quadratic form is the integral of the square of the linear
interpolation (on a triangle with values `x, y, z`: area/6 · (x² + y² + z² + xy + yz + zx)), and it is positive definite. -/
theorem C66_vertex_mass (m : Mesh) (len : ℕ → ℝ) (hv : m.Valid) (ht : m.TriFaces) (hm : m.Metric len) :
    ∃ B ind M G, m.vertexDualAreas len = .ok B ∧ m.getVertexIndices = .ok ind ∧ m.vertexLumpedMassMatrix len = .ok M ∧
      m.vertexGalerkinMassMatrix len = .ok G ∧
      (∀ v, m.vLive v → M (ind v) (ind v) = B v) ∧ (∀ i j, i ≠ j → M i j = 0) ∧
      (∀ i < m.nV, ∀ j < m.nV, G i j = G j i) ∧ (∀ i < m.nV, ∑ j ∈ range m.nV, G i j = M i i) ∧
      (∀ u : ℕ → ℝ, ∑ i ∈ range m.nV, ∑ j ∈ range m.nV, u i * G i j * u j = ∑ f ∈ range m.nFFill with m.fLive f, (
        let x := u (ind (m.heVertex (m.fHalfedge f)))
        let y := u (ind (m.heVertex (m.heNext (m.fHalfedge f))))
        let z := u (ind (m.heVertex (m.heNext (m.heNext (m.fHalfedge f)))))
        m.faceArea len f / 6 * (x ^ 2 + y ^ 2 + z ^ 2 + x * y + y * z + z * x))) ∧
      (∀ u : ℕ → ℝ, (∃ i < m.nV, u i ≠ 0) → 0 < ∑ i ∈ range m.nV, ∑ j ∈ range m.nV, u i * G i j * u j) := by
  obtain ⟨vs, hs, is, es, fs, R⟩ := hv.ranges
  obtain ⟨B, b1, b2⟩ := vertexDualAreas_ok (len := len) hv R
  obtain ⟨G, g1, g2⟩ := galerkin_form (len := len) hv R
  set ind := number vs
  have hM : ∀ v, m.vLive v → diagonal (vs.foldl (fun (s : (ℕ → ℝ) × ℕ) v => (Function.update s.1 s.2 (B v), s.2 + 1)) (fun _ => 0, 0)).1
      (ind v) (ind v) = B v := by
    intro v hl
    unfold diagonal
    rw [if_pos rfl]
    exact counter_eq B R.nv ((R.mv v).2 (mem_verts.2 hl))
  have fh : ∀ f ∈ m.faces, m.heLive (m.fHalfedge f) ∧ ¬ m.ext (m.fHalfedge f) ∧ m.heFace (m.fHalfedge f) = f := by
    intro f hf
    obtain ⟨q1, q2⟩ := mem_faces.1 hf
    obtain ⟨l0, e0⟩ := hv.f_he f q1
    exact ⟨l0, face_not_ext hv (by rw [e0]; exact q2), e0⟩
  refine ⟨B, ind, _, G, b1, R.iv.1, by unfold vertexLumpedMassMatrix; rw [b1, R.v]; rfl, g1, hM, ?_, fun i hi j hj => ?_, fun i hi => ?_,
    fun u => ?_, fun u hu => ?_⟩
  · intro i j h; unfold diagonal; rw [if_neg h]
  · rw [← pair_single G hi hj, ← pair_single G hj hi, g2, g2]
    exact sum_congr rfl (fun f _ => by ring)
  · obtain ⟨v, hl, rfl⟩ := R.iv.2.2.1 i hi
    rw [hM v hl, b2]
    have := pair_row G (k := m.nV) hi (fun _ => 1)
    simp only [mul_one] at this
    rw [← this]
    have h2 := g2 (fun a => if a = ind v then 1 else 0) (fun _ => 1)
    simp only [mul_one] at h2
    rw [h2, sum_filter, ← sum_faces hv ht]
    refine sum_congr rfl (fun f hf => ?_)
    obtain ⟨l0, x0, e0⟩ := fh f hf
    have l1 := hv.next_live _ l0
    have l2 := hv.next_live _ l1
    rw [hv.face_next l1, hv.face_next l0, e0]
    have key : ∀ h, m.heLive h → (if ind (m.heVertex h) = ind v then (1 : ℝ) else 0) = if m.heVertex h = v then 1 else 0 := by
      intro h hh
      by_cases e : m.heVertex h = v
      · rw [e, if_pos rfl, if_pos rfl]
      · rw [if_neg e, if_neg (fun q => e (R.iv.2.inj (hv.vertex_live h hh) hl q))]
    have key2 : ∀ (p : Prop) [Decidable p], (if p then m.faceArea len f / 3 else 0) = m.faceArea len f / 3 * (if p then 1 else 0) := by
      intro p _; split <;> ring
    rw [key _ l0, key _ l1, key _ l2, key2, key2, key2]
    ring
  · rw [g2]
    exact sum_congr rfl (fun f _ => by ring)
  · rw [g2]
    have pos : ∀ (A x y z : ℝ), 0 < A → 0 ≤ A / 12 * ((x + y + z) * (x + y + z) + x * x + y * y + z * z) := by
      intro A x y z hA
      have := mul_self_nonneg (x + y + z); have := mul_self_nonneg x; have := mul_self_nonneg y; have := mul_self_nonneg z
      exact mul_nonneg (by positivity) (by linarith)
    obtain ⟨i, hi, hu⟩ := hu
    obtain ⟨v, hl, rfl⟩ := R.iv.2.2.1 i hi
    obtain ⟨h1, h2⟩ := vHe_int' hv hl
    have hf := int_face hv h1
    refine sum_pos' (fun f hf => pos _ _ _ _ (faceArea_pos hv hm hf)) ⟨_, hf, ?_⟩
    obtain ⟨l0, x0, e0⟩ := fh _ hf
    have hA := faceArea_pos hv hm hf
    have hm' := hv.tri_mem l0 (mem_ints.1 h1).1 (ht _ l0 x0) e0.symm
    set h := m.fHalfedge (m.heFace (m.vHalfedge v))
    set x := u (ind (m.heVertex h))
    set y := u (ind (m.heVertex (m.heNext h)))
    set z := u (ind (m.heVertex (m.heNext (m.heNext h))))
    have : 0 < x * x ∨ 0 < y * y ∨ 0 < z * z := by
      rcases hm' with q | q | q
      · left
        have : x ≠ 0 := by simp only [x]; rw [← q, h2]; exact hu
        exact mul_self_pos.2 this
      · right; left
        have : y ≠ 0 := by simp only [y]; rw [← q, h2]; exact hu
        exact mul_self_pos.2 this
      · right; right
        have : z ≠ 0 := by simp only [z]; rw [← q, h2]; exact hu
        exact mul_self_pos.2 this
    have := mul_self_nonneg (x + y + z); have := mul_self_nonneg x; have := mul_self_nonneg y; have := mul_self_nonneg z
    refine mul_pos (by positivity) ?_
    rcases ‹0 < x * x ∨ 0 < y * y ∨ 0 < z * z› with q | q | q <;> linarith

/-- **C66, face and edge mass matrices.** The face mass matrix is diagonal with the face areas; the Crouzeix–Raviart mass matrix is
diagonal with a third of the areas at an edge, and its trace is the total area. -/
theorem C66_face_edge_mass (m : Mesh) (len : ℕ → ℝ) (hv : m.Valid) (ht : m.TriFaces) :
    ∃ A F C indF indE, m.faceAreas len = .ok A ∧ m.getFaceIndices = .ok indF ∧ m.getEdgeIndices = .ok indE ∧
      m.faceGalerkinMassMatrix len = .ok F ∧ m.crouzeixRaviartMassMatrix len = .ok C ∧
      (∀ f, m.fLive f → f < m.nFFill → F (indF f) (indF f) = A f) ∧ (∀ i j, i ≠ j → F i j = 0) ∧
      (∀ e, m.heLive (2 * e) → C (indE e) (indE e) = (∑ h ∈ {2 * e, 2 * e + 1} with ¬ m.ext h, A (m.heFace h)) / 3) ∧
      (∀ i j, i ≠ j → C i j = 0) ∧ ∑ i ∈ range m.nE, C i i = ∑ f ∈ range m.nFFill with m.fLive f, A f := by
  obtain ⟨vs, hs, is, es, fs, R⟩ := hv.ranges
  obtain ⟨A, a1, a2⟩ := faceAreas_ok (len := len) R
  obtain ⟨r, r1, r2, r3⟩ := nested_edges hv R
  set TF := fs.map (fun f => (number fs f, number fs f, A f)) with hTF
  set TC := r.map (fun p => (number es p.1, number es p.1, A (m.heFace p.2) / 3)) with hTC
  have bF : ∀ t ∈ TF, t.1 < m.nF ∧ t.2.1 < m.nF := by
    intro t ht
    obtain ⟨f, hf, rfl⟩ := List.mem_map.1 ht
    have := R.if'.2.1 f (mem_faces.1 ((R.mf f).1 hf))
    exact ⟨this, this⟩
  have bC : ∀ t ∈ TC, t.1 < m.nE ∧ t.2.1 < m.nE := by
    intro t ht
    obtain ⟨p, hp, rfl⟩ := List.mem_map.1 ht
    obtain ⟨e, hi⟩ := r2 p hp
    have := R.ie.2.1 p.1 (by rw [e]; exact edge_live hv (mem_ints.1 hi).1)
    exact ⟨this, this⟩
  have eC : ∀ e, m.heLive (2 * e) → entry TC (number es e) (number es e) = (∑ h ∈ {2 * e, 2 * e + 1} with ¬ m.ext h, A (m.heFace h)) / 3 := by
    intro e he
    unfold entry
    rw [hTC, List.map_map, r3, sum_div]
    have h1 : m.heLive (2 * e + 1) := by have := hv.twin_live _ he; rwa [twin_two_mul] at this
    have : ({h ∈ {2 * e, 2 * e + 1} | ¬ m.ext h} : Finset ℕ) = {i ∈ m.ints | heEdge i = e} := by
      ext i
      rw [mem_filter, mem_filter, mem_ints, mem_insert, mem_singleton]
      have hE : heEdge i = e ↔ i = 2 * e ∨ i = 2 * e + 1 := by unfold heEdge; omega
      rw [hE]
      constructor
      · rintro ⟨rfl | rfl, b⟩
        · exact ⟨⟨he, b⟩, .inl rfl⟩
        · exact ⟨⟨h1, b⟩, .inr rfl⟩
      · rintro ⟨⟨a, b⟩, c⟩; exact ⟨c, b⟩
    rw [this, sum_filter]
    refine sum_congr rfl (fun i hi => ?_)
    simp only [Function.comp, and_self]
    by_cases q : heEdge i = e
    · rw [q, if_pos rfl, if_pos rfl]
    · rw [if_neg q, if_neg (fun z => q (R.ie.2.inj (edge_live hv (mem_ints.1 hi).1) he z))]
  refine ⟨A, entry TF, entry TC, number fs, number es, a1, R.if'.1, R.ie.1, ?_, ?_, fun f h1 h2 => ?_, fun i j h => ?_, eC, fun i j h => ?_, ?_⟩
  · simp only [faceGalerkinMassMatrix, bind, Except.bind, a1, R.if'.1, R.f]
    exact setFromTriplets_ok bF
  · simp only [crouzeixRaviartMassMatrix, bind, Except.bind, a1, R.ie.1, R.e, r1]
    exact setFromTriplets_ok bC
  · unfold entry
    rw [hTF, List.map_map, sum_of_nodup R.nf R.mf, sum_eq_single f]
    · simp
    · intro g hg ne
      simp only [Function.comp, and_self]
      rw [if_neg (fun z => ne (R.if'.2.inj (mem_faces.1 hg) ⟨h1, h2⟩ z))]
    · intro q; exact absurd (mem_faces.2 ⟨h1, h2⟩) q
  · unfold entry
    rw [hTF, List.map_map, sum_of_nodup R.nf R.mf]
    refine sum_eq_zero (fun f _ => ?_)
    simp only [Function.comp]
    rw [if_neg (fun q => h (q.1.symm.trans q.2))]
  · unfold entry
    rw [hTC, List.map_map, r3]
    refine sum_eq_zero (fun f _ => ?_)
    simp only [Function.comp]
    rw [if_neg (fun q => h (q.1.symm.trans q.2))]
  · rw [sum_index R.ie.2 (S := m.edges) (fun e => mem_edges hv) (fun k => entry TC k k)]
    have eF : ({f ∈ range m.nFFill | m.fLive f} : Finset ℕ) = m.faces := rfl
    have eA : ∑ f ∈ m.faces, A f = ∑ f ∈ m.faces, m.faceArea len f := sum_congr rfl (fun f hf => by rw [a2, if_pos hf])
    rw [eF, eA, ← area_total hv ht]
    rw [← sum_fiberwise_of_maps_to (t := m.edges) (g := heEdge) (fun i hi => (mem_edges hv).2 (edge_live hv (mem_ints.1 hi).1))]
    refine sum_congr rfl (fun e he => ?_)
    have he := (mem_edges hv).1 he
    have h1 : m.heLive (2 * e + 1) := by have := hv.twin_live _ he; rwa [twin_two_mul] at this
    rw [eC e he, sum_div]
    have : ({h ∈ {2 * e, 2 * e + 1} | ¬ m.ext h} : Finset ℕ) = {i ∈ m.ints | heEdge i = e} := by
      ext i
      rw [mem_filter, mem_filter, mem_ints, mem_insert, mem_singleton]
      have hE : heEdge i = e ↔ i = 2 * e ∨ i = 2 * e + 1 := by unfold heEdge; omega
      rw [hE]
      constructor
      · rintro ⟨rfl | rfl, b⟩
        · exact ⟨⟨he, b⟩, .inl rfl⟩
        · exact ⟨⟨h1, b⟩, .inr rfl⟩
      · rintro ⟨⟨a, b⟩, c⟩; exact ⟨c, b⟩
    rw [this]
    exact sum_congr rfl (fun i hi => by rw [a2, if_pos (int_face hv (mem_filter.1 hi).1)])

/-- **C66, exterior calculus.** `d0` takes vertex values to differences along the edges, `d1` sums signed edge values around a face,
`d1 d0 = 0`, the diagonal matrices have the dual areas, the cotangent weights and the inverse face areas on the diagonal, and
`d0ᵀ hodge1 d0` is the cotangent Laplacian. `d0` and `d1` do so on all meshes, also with polygons. -/
theorem C66_exterior_calculus (m : Mesh) (len : ℕ → ℝ) (hv : m.Valid) :
    ∃ D L A B w vInd eInd fInd, m.decOperators len = .ok D ∧ m.cotanLaplacian len = .ok L ∧ m.faceAreas len = .ok A ∧
      m.vertexDualAreas len = .ok B ∧ m.edgeCotanWeights len = .ok w ∧
      m.getVertexIndices = .ok vInd ∧ m.getEdgeIndices = .ok eInd ∧ m.getFaceIndices = .ok fInd ∧
      (∀ (u : ℕ → ℝ) h, m.heLive h → ∑ j ∈ range m.nV, D.d0 (eInd (h / 2)) j * u j =
        (if h % 2 = 0 then 1 else -1) * (u (vInd (m.heVertex (m.heNext h))) - u (vInd (m.heVertex h)))) ∧
      (∀ (a : ℕ → ℝ) f, m.fLive f → f < m.nFFill → ∑ j ∈ range m.nE, D.d1 (fInd f) j * a j =
        ∑ h ∈ range m.nHeFill with m.heLive h ∧ m.heFace h = f, (if h % 2 = 0 then 1 else -1) * a (eInd (h / 2))) ∧
      (∀ i < m.nF, ∀ j < m.nV, ∑ e ∈ range m.nE, D.d1 i e * D.d0 e j = 0) ∧
      (∀ v, m.vLive v → D.hodge0 (vInd v) (vInd v) = B v) ∧ (∀ e, m.heLive (2 * e) → D.hodge1 (eInd e) (eInd e) = w e) ∧
      (∀ f, m.fLive f → f < m.nFFill → D.hodge2 (fInd f) (fInd f) = 1 / A f) ∧
      (∀ i j, i ≠ j → D.hodge0 i j = 0 ∧ D.hodge1 i j = 0 ∧ D.hodge2 i j = 0) ∧
      (∀ i < m.nV, ∀ j < m.nV, ∑ e ∈ range m.nE, ∑ e' ∈ range m.nE, D.d0 e i * D.hodge1 e e' * D.d0 e' j = L i j) := by
  obtain ⟨vs, hs, is, es, fs, R⟩ := hv.ranges
  obtain ⟨A, a1, a2⟩ := faceAreas_ok (len := len) R
  obtain ⟨B, b1, b2⟩ := vertexDualAreas_ok (len := len) hv R
  obtain ⟨w, w1, w2⟩ := edgeCotanWeights_ok (len := len) hv R
  obtain ⟨L, l1, l2⟩ := cotanLaplacian_form (len := len) hv R
  obtain ⟨r, r1, -, r2, r3⟩ := nested_faces hv R
  set vInd := number vs with hvI
  set eInd := number es with heI
  set fInd := number fs with hfI
  set T0 : List (Triplet ℝ) := es.flatMap (fun e =>
    let he := eHalfedge e
    [(eInd e, vInd (m.heVertex (m.heNext he)), (1 : ℝ)), (eInd e, vInd (m.heVertex he), -1)]) with hT0
  set T1 : List (Triplet ℝ) := r.map (fun p =>
    (fInd p.1, eInd (heEdge p.2), if p.2 = eHalfedge (heEdge p.2) then (1 : ℝ) else -1)) with hT1
  have bd0 : ∀ t ∈ T0, t.1 < m.nE ∧ t.2.1 < m.nV := by
    intro t ht
    obtain ⟨e, he, h⟩ := List.mem_flatMap.1 ht
    have hl := (mem_edges hv).1 ((R.me e).1 he)
    have b0 := R.ie.2.1 e hl
    have b1 := R.iv.2.1 _ (hv.vertex_live _ hl)
    have b2 := R.iv.2.1 _ (hv.vertex_live _ (hv.next_live _ hl))
    simp only [eHalfedge, List.mem_cons, List.not_mem_nil, or_false] at h
    rcases h with rfl | rfl
    · exact ⟨b0, b2⟩
    · exact ⟨b0, b1⟩
  have bd1 : ∀ t ∈ T1, t.1 < m.nF ∧ t.2.1 < m.nE := by
    intro t ht
    obtain ⟨p, hp, rfl⟩ := List.mem_map.1 ht
    obtain ⟨e, hi⟩ := r2 p hp
    exact ⟨R.if'.2.1 p.1 (by rw [e]; exact mem_faces.1 (int_face hv hi)), R.ie.2.1 _ (edge_live hv (mem_ints.1 hi).1)⟩
  set D : DEC := ⟨diagonal (fillVector vInd (fun v => B v / 1) vs), diagonal (fillVector eInd w es),
    diagonal (fillVector fInd (fun f => 1 / A f) fs), entry T0, entry T1⟩ with hD
  have hDok : m.decOperators len = .ok D := by
    simp only [decOperators, bind, Except.bind, b1, w1, a1, R.iv.1, R.ie.1, R.if'.1, R.v, R.e, R.f, r1]
    rw [show setFromTriplets m.nE m.nV _ = .ok (entry T0) from setFromTriplets_ok bd0]
    simp only
    rw [show setFromTriplets m.nF m.nE _ = .ok (entry T1) from setFromTriplets_ok bd1]
  -- d0 at an edge
  have d0e : ∀ (u : ℕ → ℝ) e, m.heLive (2 * e) → ∑ j ∈ range m.nV, D.d0 (eInd e) j * u j = m.diff vInd u (2 * e) := by
    intro u e he
    rw [← pair_row D.d0 (R.ie.2.1 e he) u]
    show ∑ i ∈ range m.nE, ∑ j ∈ range m.nV, _ * entry T0 i j * u j = _
    rw [entry_pair bd0 (fun a => if a = eInd e then 1 else 0) u, hT0, sum_flatMap, sum_of_nodup R.ne R.me, sum_eq_single e]
    · simp only [List.map_cons, List.map_nil, List.sum_cons, List.sum_nil, if_true, eHalfedge, diff]
      ring
    · intro b hb ne
      have : ¬ eInd b = eInd e := fun q => ne (R.ie.2.inj ((mem_edges hv).1 hb) he q)
      simp only [List.map_cons, List.map_nil, List.sum_cons, List.sum_nil, if_neg this]
      ring
    · intro q; exact absurd ((mem_edges hv).2 he) q
  have d0h : ∀ (u : ℕ → ℝ) h, m.heLive h → ∑ j ∈ range m.nV, D.d0 (eInd (h / 2)) j * u j =
      (if h % 2 = 0 then 1 else -1) * m.diff vInd u h := by
    intro u h hl
    rw [d0e u (h / 2) (edge_live hv hl)]
    rcases Nat.mod_two_eq_zero_or_one h with e | e
    · rw [if_pos e, show 2 * (h / 2) = h by omega, one_mul]
    · rw [if_neg (by omega)]
      have e1 : h = 2 * (h / 2) + 1 := by omega
      have : twin h = 2 * (h / 2) := by conv_lhs => rw [e1, ← twin_two_mul, twin_twin]
      rw [← this, diff_twin hv vInd u hl]; ring
  have d1f : ∀ (a : ℕ → ℝ) f, m.fLive f → f < m.nFFill → ∑ j ∈ range m.nE, D.d1 (fInd f) j * a j =
        ∑ h ∈ m.ints with m.heFace h = f, (if h % 2 = 0 then 1 else -1) * a (eInd (h / 2)) := by
    intro a f h1 h2
    rw [← pair_row D.d1 (R.if'.2.1 f ⟨h1, h2⟩) a]
    show ∑ i ∈ range m.nF, ∑ j ∈ range m.nE, _ * entry T1 i j * a j = _
    rw [entry_pair bd1 (fun k => if k = fInd f then 1 else 0) a, hT1, List.map_map, r3, sum_filter]
    refine sum_congr rfl (fun h hh => ?_)
    simp only [Function.comp]
    have hp : (h = eHalfedge (heEdge h)) ↔ h % 2 = 0 := by unfold eHalfedge heEdge; omega
    simp only [hp]
    by_cases q : m.heFace h = f
    · rw [q, if_pos rfl, if_pos rfl, one_mul]; rfl
    · rw [if_neg q, if_neg (fun z => q (R.if'.2.inj (mem_faces.1 (int_face hv hh)) ⟨h1, h2⟩ z))]; ring
  have fcl : ∀ f, m.fLive f → f < m.nFFill → ∀ u : ℕ → ℝ, ∑ h ∈ m.ints with m.heFace h = f, m.diff vInd u h = 0 := by
    intro f h1 h2 u
    unfold diff
    rw [sum_sub_distrib, sub_eq_zero]
    refine sum_bij (fun h _ => m.heNext h) (fun h hh => ?_) (fun h hh k hk e => ?_) (fun h hh => ?_) (fun _ _ => rfl)
    · obtain ⟨a, b⟩ := mem_filter.1 hh
      exact mem_filter.2 ⟨int_next hv a, by rw [hv.face_next (mem_ints.1 a).1, b]⟩
    · exact hv.next_inj (mem_ints.1 (mem_filter.1 hh).1).1 (mem_ints.1 (mem_filter.1 hk).1).1 e
    · obtain ⟨a, b⟩ := mem_filter.1 hh
      obtain ⟨p, -, -, lp, np⟩ := C49_prev m hv h (mem_ints.1 a).1
      refine ⟨p, mem_filter.2 ⟨mem_ints.2 ⟨lp, fun hx => (mem_ints.1 a).2 ?_⟩, ?_⟩, np⟩
      · rw [← np]; exact (hv.ext_next lp).2 hx
      · rw [← b, ← np, hv.face_next lp]
  refine ⟨D, L, A, B, w, vInd, eInd, fInd, hDok, l1, a1, b1, w1, R.iv.1, R.ie.1, R.if'.1, d0h, ?_, ?_, ?_, ?_, ?_, ?_, ?_⟩
  · intro a f h1 h2
    rw [d1f a f h1 h2]
    congr 1
    ext h
    simp only [mem_filter, mem_ints, mem_range]
    constructor
    · rintro ⟨⟨x, y⟩, z⟩; exact ⟨x.1, x, z⟩
    · rintro ⟨-, x, z⟩; exact ⟨⟨x, face_not_ext hv (by rw [z]; exact h2)⟩, z⟩
  · intro i hi j hj
    obtain ⟨f, ⟨h1, h2⟩, rfl⟩ := R.if'.2.2.1 i hi
    rw [d1f (fun e => D.d0 e j) f h1 h2]
    rw [← fcl f h1 h2 (fun a => if a = j then 1 else 0)]
    refine sum_congr rfl (fun h hh => ?_)
    have := d0h (fun a => if a = j then 1 else 0) h (mem_ints.1 (mem_filter.1 hh).1).1
    have e : ∑ k ∈ range m.nV, D.d0 (eInd (h / 2)) k * (if k = j then 1 else 0) = D.d0 (eInd (h / 2)) j := by
      rw [sum_eq_single j]
      · simp
      · intro b _ q; simp [q]
      · intro q; exact absurd (mem_range.2 hj) q
    rw [← e, this]
    split <;> ring
  · intro v hl
    show diagonal _ _ _ = _
    unfold diagonal
    rw [if_pos rfl, fillVector_apply ((R.mv v).2 (mem_verts.2 hl))
      (fun y hy e => R.iv.2.inj (mem_verts.1 ((R.mv y).1 hy)) hl e), div_one]
  · intro e he
    show diagonal _ _ _ = _
    unfold diagonal
    rw [if_pos rfl, fillVector_apply ((R.me e).2 ((mem_edges hv).2 he))
      (fun y hy q => R.ie.2.inj ((mem_edges hv).1 ((R.me y).1 hy)) he q)]
  · intro f h1 h2
    show diagonal _ _ _ = _
    unfold diagonal
    rw [if_pos rfl, fillVector_apply ((R.mf f).2 (mem_faces.2 ⟨h1, h2⟩))
      (fun y hy q => R.if'.2.inj (mem_faces.1 ((R.mf y).1 hy)) ⟨h1, h2⟩ q)]
  · intro i j h
    refine ⟨?_, ?_, ?_⟩ <;>
    · show diagonal _ _ _ = _
      unfold diagonal; rw [if_neg h]
  · intro i hi j hj
    rw [← pair_single L hi hj, l2]
    have inner : ∀ e ∈ range m.nE, ∑ e' ∈ range m.nE, D.d0 e i * D.hodge1 e e' * D.d0 e' j = fillVector eInd w es e * (D.d0 e i * D.d0 e j) := by
      intro e he
      rw [sum_eq_single e]
      · show _ * diagonal _ e e * _ = _
        unfold diagonal; rw [if_pos rfl]; ring
      · intro b _ q
        show _ * diagonal _ e b * _ = _
        unfold diagonal; rw [if_neg (Ne.symm q)]; ring
      · intro q; exact absurd he q
    rw [sum_congr rfl inner, sum_index R.ie.2 (S := m.edges) (fun e => mem_edges hv)]
    have single : ∀ e, m.heLive (2 * e) → ∀ k < m.nV, D.d0 (eInd e) k = m.diff vInd (fun a => if a = k then 1 else 0) (2 * e) := by
      intro e he k hk
      rw [← d0e _ e he, sum_eq_single k]
      · simp
      · intro b _ q; simp [q]
      · intro q; exact absurd (mem_range.2 hk) q
    rw [← sum_fiberwise_of_maps_to (t := m.edges) (g := heEdge) (fun i hi => (mem_edges hv).2 (edge_live hv (mem_ints.1 hi).1))]
    refine sum_congr rfl (fun e he => ?_)
    have he' := (mem_edges hv).1 he
    rw [fillVector_apply ((R.me e).2 he) (fun y hy q => R.ie.2.inj ((mem_edges hv).1 ((R.me y).1 hy)) he' q),
      single e he' i hi, single e he' j hj, w2, sum_mul]
    refine sum_congr rfl (fun h hh => ?_)
    obtain ⟨a, b⟩ := mem_filter.1 hh
    rw [← diff_mul hv vInd _ _ (mem_ints.1 a).1, b]

/-- The tetrahedron and the square cut into two triangles, all edges of length one; a quadrilateral for the exterior calculus. -/
example : tetra.Valid ∧ tetra.TriFaces ∧ tetra.Metric (fun _ => 1) ∧ square.Valid ∧ square.TriFaces ∧ square.Metric (fun _ => 1) ∧
    quad.Valid := ⟨tetra_valid, tetra_tri, metric_one _, square_valid, square_tri, metric_one _, quad_valid⟩

end Mesh
end GC
