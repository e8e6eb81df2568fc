import Verif.Props.GaussBonnet

/-! # C65: the cotangent and Crouzeix–Raviart Laplacians -/

namespace GC
open Classical Finset

/-! ## One triangle -/

/-- The Dirichlet energy of a linear function on a triangle: with sides `a, b, c` closing up and gradient `g`, the
cotangent formula gives area times squared gradient. -/
theorem cot_energy {a b c g : V2} (hs : a.add (b.add c) = ⟨0, 0⟩) (h : TriOK a.norm b.norm c.norm) :
    cotw a.norm b.norm c.norm * (g.dot a) ^ 2 + cotw b.norm c.norm a.norm * (g.dot b) ^ 2 + cotw c.norm a.norm b.norm * (g.dot c) ^ 2 =
      triangleArea a.norm b.norm c.norm * g.norm2 := by
  have hA := h.area_pos
  have hq := h.area_sq
  have e1 : triangleArea b.norm c.norm a.norm = triangleArea a.norm b.norm c.norm := (triangleArea_rot _ _ _).symm
  have e2 : triangleArea c.norm a.norm b.norm = triangleArea a.norm b.norm c.norm := by rw [triangleArea_rot]
  unfold cotw
  rw [e1, e2]
  set A := triangleArea a.norm b.norm c.norm
  have n : ∀ v : V2, v.norm * v.norm = v.x * v.x + v.y * v.y := fun v => Real.mul_self_sqrt (by nlinarith [mul_self_nonneg v.x, mul_self_nonneg v.y])
  have na := n a; have nb := n b; have nc := n c
  have cx : c.x = -a.x - b.x := by have := congrArg V2.x hs; simp only [V2.add] at this; linarith
  have cy : c.y = -a.y - b.y := by have := congrArg V2.y hs; simp only [V2.add] at this; linarith
  rw [cx, cy] at nc
  simp only [pow_two] at hq
  rw [na, nb, nc] at hq
  simp only [neg_mul, na, nb, nc]
  unfold V2.dot V2.norm2
  rw [cx, cy]
  have hA' : A ≠ 0 := hA.ne'
  field_simp
  linear_combination (-(g.x * g.x + g.y * g.y) / 2) * hq

/-- The cotangent form of a triangle is positive definite on differences. -/
theorem cot_form {a b c x y z : ℝ} (h : TriOK a b c) (hz : x + y + z = 0) :
    0 ≤ cotw a b c * x ^ 2 + cotw b c a * y ^ 2 + cotw c a b * z ^ 2 ∧
      (cotw a b c * x ^ 2 + cotw b c a * y ^ 2 + cotw c a b * z ^ 2 = 0 → x = 0 ∧ y = 0 ∧ z = 0) := by
  have hA := h.area_pos
  have hq := h.area_sq
  have e1 : triangleArea b c a = triangleArea a b c := (triangleArea_rot _ _ _).symm
  have e2 : triangleArea c a b = triangleArea a b c := by rw [triangleArea_rot]
  unfold cotw
  rw [e1, e2]
  set A := triangleArea a b c
  have hz' : z = -x - y := by linarith
  have pb := h.pb
  have key : (-a * a + b * b + c * c) / (4 * A) / 2 * x ^ 2 + (-b * b + c * c + a * a) / (4 * A) / 2 * y ^ 2 +
      (-c * c + a * a + b * b) / (4 * A) / 2 * z ^ 2 =
      ((2 * b ^ 2 * x + (a ^ 2 + b ^ 2 - c ^ 2) * y) ^ 2 + 16 * A ^ 2 * y ^ 2) / (16 * A * b ^ 2) := by
    have hA' : A ≠ 0 := hA.ne'
    rw [hz']
    field_simp
    linear_combination (-8 * y ^ 2) * hq
  rw [key]
  constructor
  · positivity
  · intro e
    rw [div_eq_zero_iff] at e
    have e : (2 * b ^ 2 * x + (a ^ 2 + b ^ 2 - c ^ 2) * y) ^ 2 + 16 * A ^ 2 * y ^ 2 = 0 := by
      rcases e with e | e
      · exact e
      · exact absurd e (by positivity)
    have y0 : y = 0 := by
      by_contra hy
      have : 0 < 16 * A ^ 2 * y ^ 2 := by positivity
      nlinarith [sq_nonneg (2 * b ^ 2 * x + (a ^ 2 + b ^ 2 - c ^ 2) * y)]
    rw [y0] at e
    have x0 : x = 0 := by
      by_contra hx
      have : 0 < (2 * b ^ 2 * x) ^ 2 := by positivity
      nlinarith
    exact ⟨x0, y0, by rw [hz', x0, y0]; ring⟩

/-! ## Matrices given by a bilinear form -/

/-- Sums over a dense index. -/
theorem sum_index {α : Type} [AddCommMonoid α] {idx : ℕ → ℕ} {ex : ℕ → Prop} {n : ℕ} (h : IsIndex idx ex n) {S : Finset ℕ}
    (hS : ∀ i, i ∈ S ↔ ex i) (F : ℕ → α) : ∑ k ∈ range n, F k = ∑ i ∈ S, F (idx i) := by
  symm
  refine sum_bij (fun i _ => idx i) (fun i hi => mem_range.2 (h.1 i ((hS i).1 hi))) (fun i hi j hj e => ?_) (fun k hk => ?_) (fun _ _ => rfl)
  · exact h.inj ((hS i).1 hi) ((hS j).1 hj) e
  · obtain ⟨i, h1, h2⟩ := h.2.1 k (mem_range.1 hk)
    exact ⟨i, (hS i).2 h1, h2⟩

/-- Evaluation of a bilinear form at basis vectors. -/
theorem pair_single (M : ℕ → ℕ → ℝ) {n k i j : ℕ} (hi : i < n) (hj : j < k) :
    ∑ a ∈ range n, ∑ b ∈ range k, (if a = i then 1 else 0) * M a b * (if b = j then 1 else 0) = M i j := by
  rw [sum_eq_single i, sum_eq_single j]
  · simp
  · intro b _ h; simp [h]
  · intro h; exact absurd (mem_range.2 hj) h
  · intro a _ h; simp [h]
  · intro h; exact absurd (mem_range.2 hi) h

theorem pair_row (M : ℕ → ℕ → ℝ) {n k i : ℕ} (hi : i < n) (y : ℕ → ℝ) :
    ∑ a ∈ range n, ∑ b ∈ range k, (if a = i then 1 else 0) * M a b * y b = ∑ b ∈ range k, M i b * y b := by
  rw [sum_eq_single i]
  · simp
  · intro b _ h; simp [h]
  · intro h; exact absurd (mem_range.2 hi) h

namespace Mesh
variable {m : Mesh} {len : ℕ → ℝ} {vs hs is es fs : List ℕ}

theorem halfedgeCotanWeights_ok (hv : m.Valid) (R : m.Ranges vs hs is es fs) :
    ∃ w, m.halfedgeCotanWeights len = .ok w ∧ ∀ i, w i = if i ∈ m.ints then m.halfedgeCotanWeight len i else 0 := by
  obtain ⟨A, a1, a2⟩ := faceAreas_ok (len := len) R
  refine ⟨_, by unfold halfedgeCotanWeights; rw [a1, R.i]; rfl, fun i => ?_⟩
  rw [assign_apply]
  simp only [R.mi]
  by_cases hi : i ∈ m.ints
  · rw [if_pos hi, if_pos hi, a2, if_pos (int_face hv hi)]
    unfold halfedgeCotanWeight
    rw [if_pos (heInterior_iff.2 (mem_ints.1 hi).2)]
  · rw [if_neg hi, if_neg hi]

theorem edgeCotanWeights_ok (hv : m.Valid) (R : m.Ranges vs hs is es fs) :
    ∃ w, m.edgeCotanWeights len = .ok w ∧ ∀ e, w e = ∑ i ∈ m.ints with heEdge i = e, m.halfedgeCotanWeight len i := by
  obtain ⟨A, a1, a2⟩ := faceAreas_ok (len := len) R
  obtain ⟨r, r1, -, r3⟩ := nested_edges hv R
  refine ⟨_, by simp only [edgeCotanWeights, bind, Except.bind, a1, R.e, r1]; rfl, fun e => ?_⟩
  rw [accum_apply, r3, sum_filter]
  refine sum_congr rfl (fun i hi => ?_)
  simp only
  rw [a2, if_pos (int_face hv hi)]
  unfold halfedgeCotanWeight
  rw [if_pos (heInterior_iff.2 (mem_ints.1 hi).2)]

/-- The difference of vertex values along a halfedge. -/
def diff (m : Mesh) (ind : ℕ → ℕ) (u : ℕ → ℝ) (h : ℕ) : ℝ := u (ind (m.heVertex (m.heNext h))) - u (ind (m.heVertex h))

theorem diff_twin (hv : m.Valid) (ind : ℕ → ℕ) (u : ℕ → ℝ) {h : ℕ} (hl : m.heLive h) : m.diff ind u (twin h) = -m.diff ind u h := by
  unfold diff
  have e1 : m.heVertex (m.heNext (twin h)) = m.heVertex h := hv.vertex_vNext hl
  have e2 : m.heVertex (m.heNext h) = m.heVertex (twin h) := hv.vertex_next hl
  rw [e1, e2]; ring

/-- A product of differences does not depend on the side of the edge. -/
theorem diff_mul (hv : m.Valid) (ind : ℕ → ℕ) (u w : ℕ → ℝ) {h : ℕ} (hl : m.heLive h) :
    m.diff ind u (2 * heEdge h) * m.diff ind w (2 * heEdge h) = m.diff ind u h * m.diff ind w h := by
  rcases Nat.mod_two_eq_zero_or_one h with e | e
  · rw [show 2 * heEdge h = h by unfold heEdge; omega]
  · have e1 : h = 2 * (h / 2) + 1 := by omega
    have : twin h = 2 * heEdge h := by
      unfold heEdge
      conv_lhs => rw [e1, ← twin_two_mul, twin_twin]
    rw [← this, diff_twin hv ind u hl, diff_twin hv ind w hl]; ring

/-- The bilinear form of the cotangent Laplacian. -/
theorem cotanLaplacian_form (hv : m.Valid) (R : m.Ranges vs hs is es fs) :
    ∃ L, m.cotanLaplacian len = .ok L ∧ ∀ x y : ℕ → ℝ, ∑ i ∈ range m.nV, ∑ j ∈ range m.nV, x i * L i j * y j =
      ∑ h ∈ m.ints, m.halfedgeCotanWeight len h * (m.diff (number vs) x h * m.diff (number vs) y h) := by
  obtain ⟨w, w1, w2⟩ := edgeCotanWeights_ok (len := len) hv R
  have mp : ∀ i ∈ m.ints, heEdge i ∈ m.edges := by
    intro i hi
    rw [mem_edges hv]
    have h1 := (mem_ints.1 hi).1
    rcases Nat.mod_two_eq_zero_or_one i with h | h
    · rwa [show 2 * heEdge i = i by unfold heEdge; omega]
    · have := hv.twin_live _ h1
      have e : i = 2 * (i / 2) + 1 := by omega
      rw [e, ← twin_two_mul, twin_twin] at this
      exact this
  set T := es.flatMap (fun e =>
    let he := eHalfedge e
    let iVTail := number vs (m.heVertex he)
    let iVHead := number vs (m.heVertex (m.heNext he))
    [(iVTail, iVTail, w e), (iVHead, iVHead, w e), (iVTail, iVHead, -w e), (iVHead, iVTail, -w e)]) with hT
  have bd : ∀ t ∈ T, t.1 < m.nV ∧ t.2.1 < m.nV := by
    intro t ht
    obtain ⟨e, he, h⟩ := List.mem_flatMap.1 ht
    have hl := (mem_edges hv).1 ((R.me e).1 he)
    have b1 := R.iv.2.1 _ (hv.vertex_live _ hl)
    have b2 := R.iv.2.1 _ (hv.vertex_live _ (hv.next_live _ hl))
    simp only [eHalfedge, List.mem_cons, List.not_mem_nil, or_false] at h
    rcases h with rfl | rfl | rfl | rfl
    · exact ⟨b1, b1⟩
    · exact ⟨b2, b2⟩
    · exact ⟨b1, b2⟩
    · exact ⟨b2, b1⟩
  refine ⟨entry T, ?_, fun x y => ?_⟩
  · simp only [cotanLaplacian, bind, Except.bind, w1, R.iv.1, R.e]
    exact setFromTriplets_ok bd
  · rw [entry_pair bd, hT, sum_flatMap, sum_of_nodup R.ne R.me, ← sum_fiberwise_of_maps_to mp]
    refine sum_congr rfl (fun e he => ?_)
    have : ∀ i ∈ ({i ∈ m.ints | heEdge i = e} : Finset ℕ), m.halfedgeCotanWeight len i * (m.diff (number vs) x i * m.diff (number vs) y i) =
        m.halfedgeCotanWeight len i * (m.diff (number vs) x (2 * e) * m.diff (number vs) y (2 * e)) := by
      intro i hi
      obtain ⟨a, b⟩ := mem_filter.1 hi
      rw [← diff_mul hv _ x y (mem_ints.1 a).1, b]
    rw [sum_congr rfl this, ← sum_mul, ← w2]
    simp only [List.map_cons, List.map_nil, List.sum_cons, List.sum_nil, eHalfedge, diff]
    ring

/-- The bilinear form of the Crouzeix–Raviart Laplacian. -/
theorem crouzeixRaviart_form (hv : m.Valid) (R : m.Ranges vs hs is es fs) :
    ∃ L, m.crouzeixRaviartLaplacian len = .ok L ∧ ∀ x y : ℕ → ℝ, ∑ i ∈ range m.nE, ∑ j ∈ range m.nE, x i * L i j * y j =
      ∑ h ∈ m.ints, 4 * m.halfedgeCotanWeight len h *
        ((x (number es (heEdge (m.heNext h))) - x (number es (heEdge (m.heNext (m.heNext h))))) *
         (y (number es (heEdge (m.heNext h))) - y (number es (heEdge (m.heNext (m.heNext h)))))) := by
  obtain ⟨w, w1, w2⟩ := halfedgeCotanWeights_ok (len := len) hv R
  obtain ⟨r, r1, -, r2, r3⟩ := nested_faces hv R
  have elive : ∀ i, m.heLive i → m.heLive (2 * heEdge i) := by
    intro i h1
    rcases Nat.mod_two_eq_zero_or_one i with h | h
    · rwa [show 2 * heEdge i = i by unfold heEdge; omega]
    · have := hv.twin_live _ h1
      have e : i = 2 * (i / 2) + 1 := by omega
      rw [e, ← twin_two_mul, twin_twin] at this
      exact this
  set T := r.flatMap (fun p =>
    let heA := m.heNext p.2
    let heB := m.heNext heA
    let i := number es (heEdge heA)
    let j := number es (heEdge heB)
    let weight := 4 * w p.2
    [(i, j, -weight), (j, i, -weight), (i, i, weight), (j, j, weight)]) with hT
  have bd : ∀ t ∈ T, t.1 < m.nE ∧ t.2.1 < m.nE := by
    intro t ht
    obtain ⟨p, hp, h⟩ := List.mem_flatMap.1 ht
    have i1 := int_next hv (r2 p hp).2
    have i2 := int_next hv i1
    have b1 := R.ie.2.1 _ (elive _ (mem_ints.1 i1).1)
    have b2 := R.ie.2.1 _ (elive _ (mem_ints.1 i2).1)
    simp only [List.mem_cons, List.not_mem_nil, or_false] at h
    rcases h with rfl | rfl | rfl | rfl
    · exact ⟨b1, b2⟩
    · exact ⟨b2, b1⟩
    · exact ⟨b1, b1⟩
    · exact ⟨b2, b2⟩
  refine ⟨entry T, ?_, fun x y => ?_⟩
  · simp only [crouzeixRaviartLaplacian, bind, Except.bind, w1, R.ie.1, R.f, r1]
    exact setFromTriplets_ok bd
  · rw [entry_pair bd, hT, sum_flatMap, r3]
    refine sum_congr rfl (fun i hi => ?_)
    simp only [List.map_cons, List.map_nil, List.sum_cons, List.sum_nil]
    rw [w2, if_pos hi]
    ring

/-- Sums of a quadratic cotangent form over the faces. -/
theorem form_faces (hv : m.Valid) (ht : m.TriFaces) (q : ℕ → ℝ) :
    ∑ h ∈ m.ints, m.halfedgeCotanWeight len h * q h = ∑ f ∈ m.faces,
      (let a := m.fHalfedge f; let b := m.heNext a; let c := m.heNext b
       let la := len (heEdge a); let lb := len (heEdge b); let lc := len (heEdge c)
       cotw la lb lc * q a + cotw lb lc la * q b + cotw lc la lb * q c) := by
  rw [← sum_faces hv ht]
  refine sum_congr rfl (fun f hf => ?_)
  obtain ⟨q1, q2⟩ := mem_faces.1 hf
  obtain ⟨l0, e0⟩ := hv.f_he f q1
  have x0 : ¬ m.ext (m.fHalfedge f) := face_not_ext hv (by rw [e0]; exact q2)
  have i1 := mem_ints.1 (int_next hv (mem_ints.2 ⟨l0, x0⟩))
  have i2 := mem_ints.1 (int_next hv (mem_ints.2 i1))
  have t := ht _ l0 x0
  rw [cotw_he hv ht len l0 x0, cotw_he hv ht len i1.1 i1.2, cotw_he hv ht len i2.1 i2.2]
  simp only [t]

/-- A planar layout of the faces: to each halfedge of a face a vector as long as its edge; the vectors of a face close up. -/
structure Layout (m : Mesh) (len : ℕ → ℝ) (vec : ℕ → V2) : Prop where
  norm : ∀ h, m.heLive h → ¬ m.ext h → (vec h).norm = len (h / 2)
  close : ∀ h, m.heLive h → ¬ m.ext h → (vec h).add ((vec (m.heNext h)).add (vec (m.heNext (m.heNext h)))) = ⟨0, 0⟩

/-- The energy of gradients, face by face. -/
theorem form_energy (hv : m.Valid) (ht : m.TriFaces) (hm : m.Metric len) {vec : ℕ → V2} (hl : m.Layout len vec)
    {g : ℕ → V2} {d : ℕ → ℝ} (hg : ∀ h, m.heLive h → ¬ m.ext h → (g (m.heFace h)).dot (vec h) = d h) :
    ∑ h ∈ m.ints, m.halfedgeCotanWeight len h * (d h) ^ 2 = ∑ f ∈ m.faces, m.faceArea len f * (g f).norm2 := by
  rw [form_faces hv ht]
  refine sum_congr rfl (fun f hf => ?_)
  obtain ⟨q1, q2⟩ := mem_faces.1 hf
  obtain ⟨l0, e0⟩ := hv.f_he f q1
  have x0 : ¬ m.ext (m.fHalfedge f) := face_not_ext hv (by rw [e0]; exact q2)
  have i1 := mem_ints.1 (int_next hv (mem_ints.2 ⟨l0, x0⟩))
  have i2 := mem_ints.1 (int_next hv (mem_ints.2 i1))
  have f1 := hv.face_next l0
  have f2 := hv.face_next i1.1
  have g0 := hg _ l0 x0
  have g1 := hg _ i1.1 i1.2
  have g2 := hg _ i2.1 i2.2
  rw [f2, f1, e0] at g2
  rw [f1, e0] at g1
  rw [e0] at g0
  have ok := hm _ l0 x0
  have n0 := hl.norm _ l0 x0
  have n1 := hl.norm _ i1.1 i1.2
  have n2 := hl.norm _ i2.1 i2.2
  unfold heEdge at ok
  rw [← n0, ← n1, ← n2] at ok
  have := cot_energy (g := g f) (hl.close _ l0 x0) ok
  unfold faceArea heEdge
  simp only
  rw [← n0, ← n1, ← n2, ← g0, ← g1, ← g2]
  exact this

/-- The form is nonnegative, and zero only if all differences are, provided the differences of a face close up. -/
theorem form_nonneg (hv : m.Valid) (ht : m.TriFaces) (hm : m.Metric len) {d : ℕ → ℝ}
    (hd : ∀ h ∈ m.ints, d h + d (m.heNext h) + d (m.heNext (m.heNext h)) = 0) :
    0 ≤ ∑ h ∈ m.ints, m.halfedgeCotanWeight len h * (d h) ^ 2 ∧
      (∑ h ∈ m.ints, m.halfedgeCotanWeight len h * (d h) ^ 2 = 0 → ∀ h ∈ m.ints, d h = 0) := by
  have fc : ∀ f ∈ m.faces, m.heLive (m.fHalfedge f) ∧ ¬ m.ext (m.fHalfedge f) := by
    intro f hf
    obtain ⟨q1, q2⟩ := mem_faces.1 hf
    obtain ⟨l0, e0⟩ := hv.f_he f q1
    exact ⟨l0, face_not_ext hv (by rw [e0]; exact q2)⟩
  rw [form_faces hv ht]
  have nn : ∀ f ∈ m.faces, _ := fun f hf => cot_form (hm _ (fc f hf).1 (fc f hf).2) (hd _ (mem_ints.2 (fc f hf)))
  refine ⟨sum_nonneg (fun f hf => (nn f hf).1), fun e h hh => ?_⟩
  rw [sum_eq_zero_iff_of_nonneg (fun f hf => (nn f hf).1)] at e
  have hf := int_face hv hh
  have z := (nn _ hf).2 (e _ hf)
  obtain ⟨l0, e0⟩ := hv.f_he _ (mem_faces.1 hf).1
  obtain ⟨a, b⟩ := fc _ hf
  rcases hv.tri_mem l0 (mem_ints.1 hh).1 (ht _ a b) e0.symm with q | q | q
  · rw [q]; exact z.1
  · rw [q]; exact z.2.1
  · rw [q]; exact z.2.2

/-! ## C65 -/

/-- **C65, cotangent Laplacian.** On every triangle mesh with nondegenerate triangles, closed or not, the matrix `cotanLaplacian` is
symmetric, has zero row sums, and its quadratic form is the Dirichlet energy: for vertex values `u`, it equals the sum over the
faces of the area times the squared gradient of the linear interpolation of `u`. So it is positive semidefinite, and a
vector is in its kernel exactly if it takes equal values at the ends of each edge. -/
theorem C65_cotan (m : Mesh) (len : ℕ → ℝ) (hv : m.Valid) (ht : m.TriFaces) (hm : m.Metric len) :
    ∃ L ind, m.cotanLaplacian len = .ok L ∧ m.getVertexIndices = .ok ind ∧
      (∀ i < m.nV, ∀ j < m.nV, L i j = L j i) ∧ (∀ i < m.nV, ∑ j ∈ range m.nV, L i j = 0) ∧
      (∀ (u : ℕ → ℝ) (vec g : ℕ → V2), m.Layout len vec →
        (∀ h, m.heLive h → ¬ m.ext h → (g (m.heFace h)).dot (vec h) = u (ind (m.heVertex (m.heNext h))) - u (ind (m.heVertex h))) →
        ∑ i ∈ range m.nV, ∑ j ∈ range m.nV, u i * L i j * u j = ∑ f ∈ range m.nFFill with m.fLive f, m.faceArea len f * (g f).norm2) ∧
      (∀ u : ℕ → ℝ, 0 ≤ ∑ i ∈ range m.nV, ∑ j ∈ range m.nV, u i * L i j * u j) ∧
      (∀ u : ℕ → ℝ, (∀ i < m.nV, ∑ j ∈ range m.nV, L i j * u j = 0) ↔
        ∀ h, m.heLive h → u (ind (m.heVertex h)) = u (ind (m.heVertex (m.heNext h)))) := by
  obtain ⟨vs, hs, is, es, fs, R⟩ := hv.ranges
  obtain ⟨L, l1, l2⟩ := cotanLaplacian_form (len := len) hv R
  set ind := number vs
  have cl : ∀ (u : ℕ → ℝ), ∀ h ∈ m.ints, m.diff ind u h + m.diff ind u (m.heNext h) + m.diff ind u (m.heNext (m.heNext h)) = 0 := by
    intro u h hh
    unfold diff
    rw [ht h (mem_ints.1 hh).1 (mem_ints.1 hh).2]; ring
  have sq : ∀ u : ℕ → ℝ, ∑ i ∈ range m.nV, ∑ j ∈ range m.nV, u i * L i j * u j =
      ∑ h ∈ m.ints, m.halfedgeCotanWeight len h * (m.diff ind u h) ^ 2 := by
    intro u; rw [l2]; exact sum_congr rfl (fun h _ => by ring)
  refine ⟨L, ind, l1, R.iv.1, fun i hi j hj => ?_, fun i hi => ?_, fun u vec g hl hg => ?_, fun u => ?_, fun u => ⟨fun h0 => ?_, fun h0 => ?_⟩⟩
  · rw [← pair_single L hi hj, ← pair_single L hj hi, l2, l2]
    exact sum_congr rfl (fun h _ => by ring)
  · have := pair_row L (k := m.nV) hi (fun _ => 1)
    simp only [mul_one] at this
    rw [← this]
    have h2 := l2 (fun a => if a = i then 1 else 0) (fun _ => 1)
    simp only [mul_one] at h2
    rw [h2]
    exact sum_eq_zero (fun h _ => by unfold diff; ring)
  · rw [sq]
    exact form_energy hv ht hm hl hg
  · rw [sq]; exact (form_nonneg hv ht hm (cl u)).1
  · have e : ∑ i ∈ range m.nV, ∑ j ∈ range m.nV, u i * L i j * u j = 0 := by
      refine sum_eq_zero (fun i hi => ?_)
      have := h0 i (mem_range.1 hi)
      simp only [mul_assoc]
      rw [← mul_sum, this, mul_zero]
    rw [sq] at e
    have z := (form_nonneg hv ht hm (cl u)).2 e
    intro h hl
    by_cases hx : m.ext h
    · have hl' := hv.twin_live h hl
      have := z (twin h) (mem_ints.2 ⟨hl', hv.ext_twin hl hx⟩)
      rw [diff_twin hv ind u hl] at this
      unfold diff at this; linarith
    · have := z h (mem_ints.2 ⟨hl, hx⟩)
      unfold diff at this; linarith
  · intro i hi
    rw [← pair_row L hi u, l2]
    refine sum_eq_zero (fun h hh => ?_)
    have : m.diff ind u h = 0 := by
      have := h0 h (mem_ints.1 hh).1
      unfold diff; rw [this]; ring
    rw [this]; ring

/-- **C65, Crouzeix–Raviart Laplacian.** The same for values at the edge midpoints: symmetric, zero row sums, the quadratic form is the
energy of the functions that are linear on each face and take the values at the midpoints of its edges (the vector from the midpoint of
the second edge after `h` to that of the first is half the vector of `h`), and the kernel consists of the vectors that
are equal on the edges of each face. -/
theorem C65_crouzeixRaviart (m : Mesh) (len : ℕ → ℝ) (hv : m.Valid) (ht : m.TriFaces) (hm : m.Metric len) :
    ∃ L ind, m.crouzeixRaviartLaplacian len = .ok L ∧ m.getEdgeIndices = .ok ind ∧
      (∀ i < m.nE, ∀ j < m.nE, L i j = L j i) ∧ (∀ i < m.nE, ∑ j ∈ range m.nE, L i j = 0) ∧
      (∀ (u : ℕ → ℝ) (vec g : ℕ → V2), m.Layout len vec →
        (∀ h, m.heLive h → ¬ m.ext h → (g (m.heFace h)).dot ((vec h).smul (1 / 2)) =
          u (ind (m.heNext h / 2)) - u (ind (m.heNext (m.heNext h) / 2))) →
        ∑ i ∈ range m.nE, ∑ j ∈ range m.nE, u i * L i j * u j = ∑ f ∈ range m.nFFill with m.fLive f, m.faceArea len f * (g f).norm2) ∧
      (∀ u : ℕ → ℝ, 0 ≤ ∑ i ∈ range m.nE, ∑ j ∈ range m.nE, u i * L i j * u j) ∧
      (∀ u : ℕ → ℝ, (∀ i < m.nE, ∑ j ∈ range m.nE, L i j * u j = 0) ↔
        ∀ h, m.heLive h → ¬ m.ext h → u (ind (h / 2)) = u (ind (m.heNext h / 2))) := by
  obtain ⟨vs, hs, is, es, fs, R⟩ := hv.ranges
  obtain ⟨L, l1, l2⟩ := crouzeixRaviart_form (len := len) hv R
  set ind := number es
  set D : (ℕ → ℝ) → ℕ → ℝ := fun u h => 2 * (u (ind (heEdge (m.heNext h))) - u (ind (heEdge (m.heNext (m.heNext h))))) with hD
  have cl : ∀ (u : ℕ → ℝ), ∀ h ∈ m.ints, D u h + D u (m.heNext h) + D u (m.heNext (m.heNext h)) = 0 := by
    intro u h hh
    simp only [hD]
    rw [ht h (mem_ints.1 hh).1 (mem_ints.1 hh).2]; ring
  have sq : ∀ u : ℕ → ℝ, ∑ i ∈ range m.nE, ∑ j ∈ range m.nE, u i * L i j * u j =
      ∑ h ∈ m.ints, m.halfedgeCotanWeight len h * (D u h) ^ 2 := by
    intro u; rw [l2]; exact sum_congr rfl (fun h _ => by simp only [hD]; ring)
  refine ⟨L, ind, l1, R.ie.1, fun i hi j hj => ?_, fun i hi => ?_, fun u vec g hl hg => ?_, fun u => ?_, fun u => ⟨fun h0 => ?_, fun h0 => ?_⟩⟩
  · rw [← pair_single L hi hj, ← pair_single L hj hi, l2, l2]
    exact sum_congr rfl (fun h _ => by ring)
  · have := pair_row L (k := m.nE) hi (fun _ => 1)
    simp only [mul_one] at this
    rw [← this]
    have h2 := l2 (fun a => if a = i then 1 else 0) (fun _ => 1)
    simp only [mul_one] at h2
    rw [h2]
    exact sum_eq_zero (fun h _ => by ring)
  · rw [sq]
    refine form_energy hv ht hm hl (fun h a b => ?_)
    have := hg h a b
    simp only [hD, heEdge]
    rw [← this]
    unfold V2.dot V2.smul; ring
  · rw [sq]; exact (form_nonneg hv ht hm (cl u)).1
  · have e : ∑ i ∈ range m.nE, ∑ j ∈ range m.nE, u i * L i j * u j = 0 := by
      refine sum_eq_zero (fun i hi => ?_)
      have := h0 i (mem_range.1 hi)
      simp only [mul_assoc]
      rw [← mul_sum, this, mul_zero]
    rw [sq] at e
    have z := (form_nonneg hv ht hm (cl u)).2 e
    intro h hl hx
    have i0 := mem_ints.2 ⟨hl, hx⟩
    have := z _ (int_next hv (int_next hv i0))
    simp only [hD] at this
    rw [ht h hl hx] at this
    unfold heEdge at this; linarith
  · intro i hi
    rw [← pair_row L hi u, l2]
    refine sum_eq_zero (fun h hh => ?_)
    have i1 := mem_ints.1 (int_next hv hh)
    have := h0 _ i1.1 i1.2
    unfold heEdge
    rw [this]; ring

theorem tetra_tri : tetra.TriFaces :=
  fun i hi _ => (by decide +kernel : ∀ i < 12, tetra.heNext (tetra.heNext (tetra.heNext i)) = i) i hi.1

theorem square_tri : square.TriFaces :=
  fun i hi hx => (by decide +kernel : ∀ i < 10, ¬ square.ext i → square.heNext (square.heNext (square.heNext i)) = i) i hi.1 hx

/-- The tetrahedron and the square cut into two triangles, all edges of length one; and the vectors of an equilateral triangle. -/
example : tetra.Valid ∧ tetra.TriFaces ∧ tetra.Metric (fun _ => 1) ∧ square.Valid ∧ square.TriFaces ∧ square.Metric (fun _ => 1) ∧
    (V2.mk 1 0).add ((V2.mk (-1 / 2) (Real.sqrt 3 / 2)).add (V2.mk (-1 / 2) (-(Real.sqrt 3 / 2)))) = ⟨0, 0⟩ ∧
    (V2.mk (-1 / 2) (Real.sqrt 3 / 2)).norm = 1 := by
  refine ⟨tetra_valid, tetra_tri, metric_one _, square_valid, square_tri, metric_one _, ?_, ?_⟩
  · unfold V2.add; ext <;> simp <;> norm_num
  · unfold V2.norm
    rw [Real.sqrt_eq_one]
    have := Real.mul_self_sqrt (show (0 : ℝ) ≤ 3 by norm_num)
    simp only
    linarith

end Mesh
end GC
