import Verif.Props.TangentVertex

/-! # C68: connection Laplacians -/

namespace GC
open Classical Finset

/-- A matrix entry from its bilinear form. -/
theorem pair_unit (M : ℕ → ℕ → ℂ) {n k i j : ℕ} (hi : i < n) (hj : j < k) :
    ∑ a ∈ range n, ∑ b ∈ range k, (if a = i then (1 : ℂ) else 0) * M a b * (if b = j then 1 else 0) = M i j := by
  rw [sum_eq_single i, sum_eq_single j]
  · simp
  · intro b _ h; simp [h]
  · intro h; exact absurd (mem_range.2 hj) h
  · intro b _ h; simp [h]
  · intro h; exact absurd (mem_range.2 hi) h

theorem conj_delta (p : Prop) [Decidable p] : starRingEnd ℂ (if p then (1 : ℂ) else 0) = if p then 1 else 0 := by split <;> simp

/-- The edge term of a connection Laplacian. -/
theorem edge_term {r a b : ℂ} (h : ‖r‖ = 1) :
    starRingEnd ℂ a * (a - starRingEnd ℂ r * b) + starRingEnd ℂ b * (b - r * a) = (Complex.normSq (b - r * a) : ℂ) := by
  have hr : r * starRingEnd ℂ r = 1 := by rw [Complex.mul_conj, Complex.normSq_eq_norm_sq, h]; norm_num
  rw [← Complex.mul_conj, map_sub, map_mul]
  linear_combination (-1 : ℂ) * a * starRingEnd ℂ a * hr

theorem conj_of_inv {r s : V2} (h : r.norm = 1) (e : s.mul r = ⟨1, 0⟩) : s.toC = starRingEnd ℂ r.toC := by
  have n : ‖r.toC‖ = 1 := by rw [V2.norm_toC, h]
  have ne : r.toC ≠ 0 := by rw [← norm_pos_iff, n]; norm_num
  rw [← Complex.inv_eq_conj n]
  have := congrArg V2.toC e
  rw [(C42_vector2_complex s r 0).2.2.1] at this
  exact eq_inv_of_mul_eq_one_left (this.trans rfl)

/-- The term of the Crouzeix–Raviart connection Laplacian at a corner. -/
theorem cr_term {v0 vA vB : V2} {l0 lA lB σA σB w S : ℝ} {a b ZA ZB : ℂ} (cl : v0.add (vA.add vB) = ⟨0, 0⟩)
    (n0 : l0 * l0 = v0.x * v0.x + v0.y * v0.y) (nA : lA * lA = vA.x * vA.x + vA.y * vA.y) (nB : lB * lB = vB.x * vB.x + vB.y * vB.y)
    (c : vA.cross vB = 2 * S) (pA : 0 < lA) (pB : 0 < lB) (sA : σA * σA = 1) (sB : σB * σB = 1)
    (hA : ZA * lA = σA * a * vA.toC) (hB : ZB * lB = σB * b * vB.toC) :
    (4 * w : ℂ) * (starRingEnd ℂ a * a + starRingEnd ℂ b * b -
      starRingEnd ℂ a * ((⟨-((lB * lB + lA * lA - l0 * l0) / (2 * lB * lA)), 2 * S / (lB * lA)⟩ : ℂ) * ((σA * σB : ℝ) : ℂ)) * b -
      starRingEnd ℂ b * (starRingEnd ℂ (⟨-((lB * lB + lA * lA - l0 * l0) / (2 * lB * lA)), 2 * S / (lB * lA)⟩ : ℂ) * ((σA * σB : ℝ) : ℂ)) * a) =
    ((w * (2 * (ZA.re - ZB.re)) ^ 2 + w * (2 * (ZA.im - ZB.im)) ^ 2 : ℝ) : ℂ) := by
  have sx : v0.x + (vA.x + vB.x) = 0 := congrArg V2.x cl
  have sy : v0.y + (vA.y + vB.y) = 0 := congrArg V2.y cl
  have e0 : v0.x = -vA.x - vB.x := by linarith
  have e1 : v0.y = -vA.y - vB.y := by linarith
  rw [e0, e1] at n0
  unfold V2.cross at c
  have qA : (lA : ℂ) ≠ 0 := by exact_mod_cast pA.ne'
  have qB : (lB : ℂ) ≠ 0 := by exact_mod_cast pB.ne'
  have hr : (⟨-((lB * lB + lA * lA - l0 * l0) / (2 * lB * lA)), 2 * S / (lB * lA)⟩ : ℂ) = starRingEnd ℂ (vA.toC / lA) * (vB.toC / lB) := by
    have r1 : -((lB * lB + lA * lA - l0 * l0) / (2 * lB * lA)) = (vA.x * vB.x + vA.y * vB.y) / (lA * lB) := by
      field_simp; linear_combination n0 - nA - nB
    have r2 : 2 * S / (lB * lA) = (vA.x * vB.y - vA.y * vB.x) / (lA * lB) := by
      rw [← c, mul_comm lA lB]
    rw [r1, r2, map_div₀, Complex.conj_ofReal, div_mul_div_comm]
    have : (⟨(vA.x * vB.x + vA.y * vB.y) / (lA * lB), (vA.x * vB.y - vA.y * vB.x) / (lA * lB)⟩ : ℂ) =
        ⟨vA.x * vB.x + vA.y * vB.y, vA.x * vB.y - vA.y * vB.x⟩ / ((lA * lB : ℝ) : ℂ) := by
      apply Complex.ext
      · rw [Complex.div_ofReal_re]
      · rw [Complex.div_ofReal_im]
    rw [this, Complex.ofReal_mul]
    congr 1
    apply Complex.ext <;> simp [V2.toC] <;> ring
  have unit : ∀ (v : V2) (l : ℝ), 0 < l → l * l = v.x * v.x + v.y * v.y → (v.toC / l) * starRingEnd ℂ (v.toC / l) = 1 := by
    intro v l p n
    have : v.toC * starRingEnd ℂ v.toC = (l : ℂ) * l := by
      rw [Complex.mul_conj, Complex.normSq_apply]
      have : v.toC.re * v.toC.re + v.toC.im * v.toC.im = l * l := by show v.x * v.x + v.y * v.y = _; linarith
      rw [this]; push_cast; rfl
    have q : (l : ℂ) ≠ 0 := by exact_mod_cast p.ne'
    rw [map_div₀, Complex.conj_ofReal, div_mul_div_comm, this, div_self (mul_ne_zero q q)]
  have uA := unit vA lA pA nA
  have uB := unit vB lB pB nB
  have hA' : ZA = σA * a * (vA.toC / lA) := by rw [← mul_div_assoc, ← hA, mul_div_cancel_right₀ _ qA]
  have hB' : ZB = σB * b * (vB.toC / lB) := by rw [← mul_div_assoc, ← hB, mul_div_cancel_right₀ _ qB]
  have rhs : ((w * (2 * (ZA.re - ZB.re)) ^ 2 + w * (2 * (ZA.im - ZB.im)) ^ 2 : ℝ) : ℂ) = 4 * w * ((ZA - ZB) * starRingEnd ℂ (ZA - ZB)) := by
    rw [Complex.mul_conj, Complex.normSq_apply, Complex.sub_re, Complex.sub_im]; push_cast; ring
  have sA' : (σA : ℂ) * σA = 1 := by exact_mod_cast sA
  have sB' : (σB : ℂ) * σB = 1 := by exact_mod_cast sB
  rw [rhs, hr]
  generalize vA.toC / (lA : ℂ) = u at *
  generalize vB.toC / (lB : ℂ) = t at *
  rw [hA', hB']
  simp only [map_sub, map_mul, Complex.conj_ofReal, Complex.conj_conj, Complex.ofReal_mul]
  linear_combination (-4 * w : ℂ) * (a * starRingEnd ℂ a * (σA * σA * uA + sA') + b * starRingEnd ℂ b * (σB * σB * uB + sB'))

namespace Mesh
variable {m : Mesh} {len : ℕ → ℝ} {nan : V2} {vs hs is es fs : List ℕ}

theorem sum_twin (hv : m.Valid) (F : ℕ → ℂ) : ∑ h ∈ m.hes, F (twin h) = ∑ h ∈ m.hes, F h :=
  sum_bij (fun h _ => twin h) (fun h hh => mem_hes.2 (hv.twin_live h (mem_hes.1 hh)))
    (fun h _ k _ e => by have := congrArg twin e; rwa [twin_twin, twin_twin] at this)
    (fun h hh => ⟨twin h, mem_hes.2 (hv.twin_live h (mem_hes.1 hh)), twin_twin h⟩) (fun _ _ => rfl)

/-- **C68, vertices.** The vertex connection Laplacian is Hermitian, and its form is the sum over the edges of the cotangent weight times
the squared difference of the vectors at the ends, one transported along the edge. -/
theorem C68_vertex (m : Mesh) (len : ℕ → ℝ) (hv : m.Valid) (ht : m.TriFaces) (hm : m.Metric len) :
    ∃ L ind w tr, m.vertexConnectionLaplacian len = .ok L ∧ m.getVertexIndices = .ok ind ∧ m.edgeCotanWeights len = .ok w ∧
      m.transportVectorsAlongHalfedge len = .ok tr ∧
      (∀ i < m.nV, ∀ j < m.nV, L i j = starRingEnd ℂ (L j i)) ∧
      (∀ z : ℕ → ℂ, ∑ i ∈ range m.nV, ∑ j ∈ range m.nV, starRingEnd ℂ (z i) * L i j * z j =
        ((∑ e ∈ range m.nEFill with m.heLive (2 * e), w e *
          Complex.normSq (z (ind (m.heVertex (m.heNext (2 * e)))) - (tr (2 * e)).toC * z (ind (m.heVertex (2 * e)))) : ℝ) : ℂ)) := by
  obtain ⟨vs, hs, is, es, fs, R⟩ := hv.ranges
  obtain ⟨w, w1, w2⟩ := edgeCotanWeights_ok (len := len) hv R
  obtain ⟨sa, vec, tr, th, -, -, t1, -, -, -, t2⟩ := C67_vertices m len hv ht hm
  set ind := number vs with hind
  set T : List (Triplet ℂ) := hs.flatMap (fun he =>
    let iTail := ind (m.heVertex he)
    let iTip := ind (m.heVertex (m.heNext he))
    let weight := w (heEdge he)
    let rot := tr (twin he)
    [(iTail, iTail, (weight : ℂ)), (iTail, iTip, cplx (rot.smul (-weight)))]) with hT
  have bd : ∀ t ∈ T, t.1 < m.nV ∧ t.2.1 < m.nV := by
    intro t ht
    obtain ⟨h, hh, q⟩ := List.mem_flatMap.1 ht
    have l0 := mem_hes.1 ((R.mh h).1 hh)
    have b1 := R.iv.2.1 _ (hv.vertex_live _ l0)
    have b2 := R.iv.2.1 _ (hv.vertex_live _ (hv.next_live _ l0))
    simp only [List.mem_cons, List.not_mem_nil, or_false] at q
    rcases q with rfl | rfl
    · exact ⟨b1, b1⟩
    · exact ⟨b1, b2⟩
  have ok : m.vertexConnectionLaplacian len = .ok (entry T) := by
    simp only [vertexConnectionLaplacian, bind, Except.bind, w1, t1, R.iv.1, R.h]
    exact setFromTriplets_ok bd
  have form : ∀ x y : ℕ → ℂ, ∑ i ∈ range m.nV, ∑ j ∈ range m.nV, x i * entry T i j * y j =
      ∑ h ∈ m.hes, (w (heEdge h) : ℂ) * (x (ind (m.heVertex h)) *
        (y (ind (m.heVertex h)) - (tr (twin h)).toC * y (ind (m.heVertex (m.heNext h))))) := by
    intro x y
    rw [entry_pair bd, hT, sum_flatMap, sum_of_nodup R.nh R.mh]
    refine sum_congr rfl (fun h hh => ?_)
    simp only [List.map_cons, List.map_nil, List.sum_cons, List.sum_nil]
    have : cplx ((tr (twin h)).smul (-w (heEdge h))) = -(w (heEdge h) : ℂ) * (tr (twin h)).toC := by
      apply Complex.ext <;> simp [cplx, V2.smul, V2.toC] <;> ring
    rw [this]; ring
  have cj : ∀ h, m.heLive h → (tr (twin h)).toC = starRingEnd ℂ (tr h).toC := fun h hl => conj_of_inv (t2 h hl).2.1 (t2 h hl).2.2
  refine ⟨entry T, ind, w, tr, ok, R.iv.1, w1, t1, fun i hi j hj => ?_, fun z => ?_⟩
  · rw [← pair_unit (entry T) hi hj, ← pair_unit (entry T) hj hi, form, form, map_sum]
    simp only [mul_sub, map_sub, map_mul, sum_sub_distrib, conj_delta, Complex.conj_ofReal]
    congr 1
    · exact sum_congr rfl (fun h _ => by ring)
    · rw [← sum_twin hv]
      refine sum_congr rfl (fun h hh => ?_)
      have hl := mem_hes.1 hh
      have lt := hv.twin_live h hl
      have v1 : m.heVertex (twin h) = m.heVertex (m.heNext h) := (hv.vertex_next hl).symm
      have v2 : m.heVertex (m.heNext (twin h)) = m.heVertex h := by rw [hv.vertex_next lt, twin_twin]
      rw [v1, v2, heEdge_twin, twin_twin, cj h hl, Complex.conj_conj]
      ring
  · rw [form, ← sum_edges hv]
    push_cast
    refine sum_congr rfl (fun e he => ?_)
    have hl := (mem_edges hv).1 he
    have lt := hv.twin_live _ hl
    have v1 : m.heVertex (2 * e + 1) = m.heVertex (m.heNext (2 * e)) := by rw [hv.vertex_next hl, twin_two_mul]
    have v2 : m.heVertex (m.heNext (2 * e + 1)) = m.heVertex (2 * e) := by
      rw [← twin_two_mul, hv.vertex_next lt, twin_twin]
    have e1 : heEdge (2 * e) = e := by unfold heEdge; omega
    have e2 : heEdge (2 * e + 1) = e := by unfold heEdge; omega
    have e3 : twin (2 * e + 1) = 2 * e := by rw [← twin_two_mul, twin_twin]
    have n : ‖(tr (2 * e)).toC‖ = 1 := by rw [V2.norm_toC, (t2 _ hl).2.1]
    rw [e1, e2, e3, v1, v2, cj _ hl, ← edge_term n]
    ring

/-- **C68, faces.** With at most 2^32 faces, the face connection Laplacian is Hermitian, and its form is the sum over the
edges between two faces of the squared difference of the vectors in the two faces, one transported across the edge. -/
theorem C68_face (m : Mesh) (len : ℕ → ℝ) (nan : V2) (hv : m.Valid) (ht : m.TriFaces) (hm : m.Metric len) (hF : m.nF ≤ 2 ^ 32) :
    ∃ L ind tr, m.faceConnectionLaplacian len nan = .ok L ∧ m.getFaceIndices = .ok ind ∧ m.transportVectorsAcrossHalfedge len nan = .ok tr ∧
      (∀ i < m.nF, ∀ j < m.nF, L i j = starRingEnd ℂ (L j i)) ∧
      (∀ z : ℕ → ℂ, ∑ i ∈ range m.nF, ∑ j ∈ range m.nF, starRingEnd ℂ (z i) * L i j * z j =
        ((∑ e ∈ range m.nEFill with m.heLive (2 * e) ∧ ¬ m.ext (2 * e) ∧ ¬ m.ext (2 * e + 1),
          Complex.normSq (z (ind (m.heFace (2 * e + 1))) - (tr (2 * e)).toC * z (ind (m.heFace (2 * e)))) : ℝ) : ℂ)) := by
  obtain ⟨vs, hs, is, es, fs, R⟩ := hv.ranges
  obtain ⟨vec, tr, A, -, t1, -, -, -, t2, -⟩ := C67_faces m len nan hv ht hm
  set ind := number fs with hind
  have key : ∀ f ∈ fs, ∃ L, m.navFaceHalfedges f = .ok L ∧ L.Nodup ∧ (∀ i, i ∈ L ↔ i ∈ m.ints ∧ m.heFace i = f) := by
    intro f hf
    obtain ⟨q1, q2⟩ := mem_faces.1 ((R.mf f).1 hf)
    obtain ⟨L, a, b, c, -⟩ := C49_face_halfedges m hv f q1
    refine ⟨L, a, b, fun i => ?_⟩
    rw [c, mem_ints]
    constructor
    · rintro ⟨x, rfl⟩; exact ⟨⟨x, face_not_ext hv q2⟩, rfl⟩
    · rintro ⟨⟨x, -⟩, y⟩; exact ⟨x, y⟩
  choose! L k1 k2 k3 using key
  have inner : ∀ (i : ℕ) (l : List ℕ) (s : List (Triplet ℂ) × ℂ), l.foldl (fun (s : List (Triplet ℂ) × ℂ) he =>
      if ¬ m.heIsInterior (twin he) then s else
        let j := ind (m.heFace (twin he)) % 2 ^ 32
        let rot := tr (twin he)
        let weight : ℝ := 1
        (s.1 ++ [(i, j, cplx (rot.smul (-weight)))], s.2 + weight)) s =
      (s.1 ++ (l.filter (fun he => decide (m.heIsInterior (twin he)))).map (fun he =>
        (i, ind (m.heFace (twin he)) % 2 ^ 32, cplx ((tr (twin he)).smul (-1)))),
        s.2 + ((l.filter (fun he => decide (m.heIsInterior (twin he)))).map (fun _ => (1 : ℂ))).sum) := by
    intro i l
    induction l with
    | nil => intro s; simp
    | cons a l ih =>
      intro s
      rw [List.foldl_cons, ih]
      by_cases q : m.heIsInterior (twin a)
      · rw [if_neg (not_not.2 q), List.filter_cons_of_pos (by simpa using q)]
        simp [add_assoc]
      · rw [if_pos q, List.filter_cons_of_neg (by simpa using q)]
  set g : ℕ → List (Triplet ℂ) := fun f => ((L f).filter (fun he => decide (m.heIsInterior (twin he)))).map (fun he =>
        (ind f, ind (m.heFace (twin he)) % 2 ^ 32, cplx ((tr (twin he)).smul (-1)))) ++
        [(ind f, ind f, (((L f).filter (fun he => decide (m.heIsInterior (twin he)))).map (fun _ => (1 : ℂ))).sum)] with hg
  have body : ∀ f ∈ fs, m.faceConnectionTriplets ind tr f = .ok (g f) := by
    intro f hf
    simp only [faceConnectionTriplets, bind, Except.bind, k1 f hf]
    rw [inner]
    simp [hg]
  have fold : ∀ (l : List ℕ), (∀ f ∈ l, f ∈ fs) → ∀ T0, l.foldlM (fun T f => do
      let t ← m.faceConnectionTriplets ind tr f
      .ok (T ++ t)) T0 = (.ok (T0 ++ l.flatMap g) : Res (List (Triplet ℂ))) := by
    intro l
    induction l with
    | nil => intro _ T0; simp; rfl
    | cons a l ih =>
      intro h T0
      simp only [List.foldlM_cons, bind, Except.bind, body a (h a List.mem_cons_self)]
      have := ih (fun f hf => h f (List.mem_cons_of_mem _ hf)) (T0 ++ g a)
      simp only [bind, Except.bind] at this
      rw [this, List.flatMap_cons, List.append_assoc]
  set T := fs.flatMap g with hT
  have tw : ∀ f ∈ fs, ∀ h ∈ (L f).filter (fun he => decide (m.heIsInterior (twin he))), h ∈ m.ints ∧ twin h ∈ m.ints ∧ m.heFace h = f := by
    intro f hf h hh
    rw [List.mem_filter, decide_eq_true_eq, heInterior_iff] at hh
    obtain ⟨a, b⟩ := (k3 f hf h).1 hh.1
    exact ⟨a, mem_ints.2 ⟨hv.twin_live h (mem_ints.1 a).1, hh.2⟩, b⟩
  have small : ∀ h, h ∈ m.ints → ind (m.heFace h) < m.nF ∧ ind (m.heFace h) % 2 ^ 32 = ind (m.heFace h) := by
    intro h hh
    have := R.if'.2.1 _ (mem_faces.1 (int_face hv hh))
    exact ⟨this, Nat.mod_eq_of_lt (lt_of_lt_of_le this hF)⟩
  have bd : ∀ t ∈ T, t.1 < m.nF ∧ t.2.1 < m.nF := by
    intro t ht
    obtain ⟨f, hf, q⟩ := List.mem_flatMap.1 ht
    have b1 := R.if'.2.1 f (mem_faces.1 ((R.mf f).1 hf))
    rw [hg] at q
    rcases List.mem_append.1 q with q | q
    · obtain ⟨h, hh, rfl⟩ := List.mem_map.1 q
      obtain ⟨-, i2, -⟩ := tw f hf h hh
      refine ⟨b1, ?_⟩
      show ind (m.heFace (twin h)) % 2 ^ 32 < m.nF
      rw [(small _ i2).2]; exact (small _ i2).1
    · rw [List.mem_singleton] at q
      subst q
      exact ⟨b1, b1⟩
  have ok : m.faceConnectionLaplacian len nan = .ok (entry T) := by
    simp only [faceConnectionLaplacian, bind, Except.bind, t1, R.if'.1, R.f]
    have := fold fs (fun f h => h) []
    simp only [bind, Except.bind] at this
    rw [this]
    simp only [List.nil_append]
    exact setFromTriplets_ok bd
  set D : Finset ℕ := {h ∈ m.hes | ¬ m.ext h ∧ ¬ m.ext (twin h)} with hD
  have memD : ∀ h, h ∈ D ↔ h ∈ m.ints ∧ twin h ∈ m.ints := by
    intro h
    rw [hD, mem_filter, mem_hes, mem_ints, mem_ints]
    constructor
    · rintro ⟨a, b, c⟩; exact ⟨⟨a, b⟩, hv.twin_live h a, c⟩
    · rintro ⟨⟨a, b⟩, -, c⟩; exact ⟨a, b, c⟩
  have form : ∀ x y : ℕ → ℂ, ∑ i ∈ range m.nF, ∑ j ∈ range m.nF, x i * entry T i j * y j =
      ∑ h ∈ D, x (ind (m.heFace h)) * (y (ind (m.heFace h)) - (tr (twin h)).toC * y (ind (m.heFace (twin h)))) := by
    intro x y
    rw [entry_pair bd, hT, sum_flatMap, sum_of_nodup R.nf R.mf,
      ← sum_fiberwise_of_maps_to (t := m.faces) (g := m.heFace) (fun h hh => int_face hv ((memD h).1 hh).1)]
    refine sum_congr rfl (fun f hf => ?_)
    have hf' := (R.mf f).2 hf
    have nd := (k2 f hf').filter (fun he => decide (m.heIsInterior (twin he)))
    have mm : ∀ h, h ∈ (L f).filter (fun he => decide (m.heIsInterior (twin he))) ↔ h ∈ ({h ∈ D | m.heFace h = f} : Finset ℕ) := by
      intro h
      rw [mem_filter, memD]
      constructor
      · intro q; obtain ⟨a, b, c⟩ := tw f hf' h q; exact ⟨⟨a, b⟩, c⟩
      · rintro ⟨⟨a, b⟩, c⟩
        rw [List.mem_filter, decide_eq_true_eq, heInterior_iff]
        exact ⟨(k3 f hf' h).2 ⟨a, c⟩, (mem_ints.1 b).2⟩
    simp only [hg]
    rw [List.map_append, List.sum_append, List.map_map, sum_of_nodup nd mm, sum_of_nodup nd mm]
    simp only [List.map_cons, List.map_nil, List.sum_cons, List.sum_nil, add_zero]
    rw [mul_sum, sum_mul, ← sum_add_distrib]
    refine sum_congr rfl (fun h hh => ?_)
    obtain ⟨a, b⟩ := mem_filter.1 hh
    simp only [Function.comp]
    rw [(small _ ((memD h).1 a).2).2, b]
    have : cplx ((tr (twin h)).smul (-1)) = -(tr (twin h)).toC := by
      apply Complex.ext <;> simp [cplx, V2.smul, V2.toC]
    rw [this]; ring
  have cj : ∀ h ∈ D, (tr (twin h)).toC = starRingEnd ℂ (tr h).toC := by
    intro h hh
    obtain ⟨a, b⟩ := (memD h).1 hh
    have := t2 h (mem_ints.1 a).1 (mem_ints.1 a).2 (mem_ints.1 b).2
    exact conj_of_inv this.2.1 this.2.2
  refine ⟨entry T, ind, tr, ok, R.if'.1, t1, fun i hi j hj => ?_, fun z => ?_⟩
  · rw [← pair_unit (entry T) hi hj, ← pair_unit (entry T) hj hi, form, form, map_sum]
    simp only [mul_sub, map_sub, map_mul, sum_sub_distrib, conj_delta]
    congr 1
    · exact sum_congr rfl (fun h _ => by ring)
    · refine sum_bij (fun h _ => twin h) (fun h hh => ?_) (fun h _ k _ e => ?_) (fun h hh => ?_) (fun h hh => ?_)
      · rw [memD] at hh ⊢; rw [twin_twin]; exact ⟨hh.2, hh.1⟩
      · have := congrArg twin e; rwa [twin_twin, twin_twin] at this
      · refine ⟨twin h, ?_, twin_twin h⟩
        rw [memD] at hh ⊢; rw [twin_twin]; exact ⟨hh.2, hh.1⟩
      · rw [twin_twin, cj h hh]
        ring
  · rw [form, hD, sum_filter, ← sum_edges hv]
    have es' : ({e ∈ range m.nEFill | m.heLive (2 * e) ∧ ¬ m.ext (2 * e) ∧ ¬ m.ext (2 * e + 1)} : Finset ℕ) =
        {e ∈ m.edges | ¬ m.ext (2 * e) ∧ ¬ m.ext (2 * e + 1)} := by
      unfold edges; rw [filter_filter]
    rw [es', sum_filter]
    push_cast
    refine sum_congr rfl (fun e he => ?_)
    have hl := (mem_edges hv).1 he
    have e2 : twin (2 * e) = 2 * e + 1 := twin_two_mul e
    have e3 : twin (2 * e + 1) = 2 * e := by rw [← twin_two_mul, twin_twin]
    rw [e2, e3]
    by_cases q : ¬ m.ext (2 * e) ∧ ¬ m.ext (2 * e + 1)
    · rw [if_pos q, if_pos ⟨q.2, q.1⟩, if_pos q]
      have tt := t2 _ hl q.1 (by rw [e2]; exact q.2)
      have n : ‖(tr (2 * e)).toC‖ = 1 := by rw [V2.norm_toC, tt.2.1]
      have c := conj_of_inv tt.2.1 tt.2.2
      rw [e2] at c
      rw [c, ← edge_term n]
    · rw [if_neg q, if_neg (fun z => q ⟨z.2, z.1⟩), if_neg q]
      norm_num

/-- **C68, edges.** The Crouzeix–Raviart connection Laplacian is Hermitian and positive semidefinite. Its form is the Dirichlet
energy of vector fields: in a face laid out in the plane let `Z` be the vector at the midpoint of an edge whose coordinate in the frame of the
edge (in the direction of its first halfedge) is `z`; then the form is the energy of the two components of the linear interpolation of `Z`. -/
theorem C68_edge (m : Mesh) (len : ℕ → ℝ) (hv : m.Valid) (ht : m.TriFaces) (hm : m.Metric len) :
    ∃ L ind, m.crouzeixRaviartConnectionLaplacian len = .ok L ∧ m.getEdgeIndices = .ok ind ∧
      (∀ i < m.nE, ∀ j < m.nE, L i j = starRingEnd ℂ (L j i)) ∧
      (∀ z : ℕ → ℂ, ∃ r : ℝ, 0 ≤ r ∧ ∑ i ∈ range m.nE, ∑ j ∈ range m.nE, starRingEnd ℂ (z i) * L i j * z j = r) ∧
      (∀ (z : ℕ → ℂ) (vec gx gy : ℕ → V2) (Z : ℕ → ℂ), m.Layout len vec →
        (∀ h, m.heLive h → ¬ m.ext h → (vec h).cross (vec (m.heNext h)) = 2 * m.faceArea len (m.heFace h)) →
        (∀ h, m.heLive h → ¬ m.ext h → Z h * len (h / 2) = (if h % 2 = 0 then 1 else -1) * z (ind (h / 2)) * (vec h).toC) →
        (∀ h, m.heLive h → ¬ m.ext h → (gx (m.heFace h)).dot ((vec h).smul (1 / 2)) = (Z (m.heNext h)).re - (Z (m.heNext (m.heNext h))).re ∧
          (gy (m.heFace h)).dot ((vec h).smul (1 / 2)) = (Z (m.heNext h)).im - (Z (m.heNext (m.heNext h))).im) →
        ∑ i ∈ range m.nE, ∑ j ∈ range m.nE, starRingEnd ℂ (z i) * L i j * z j =
          ((∑ f ∈ range m.nFFill with m.fLive f, m.faceArea len f * ((gx f).norm2 + (gy f).norm2) : ℝ) : ℂ)) := by
  obtain ⟨vs, hs, is, es, fs, R⟩ := hv.ranges
  obtain ⟨w, w1, w2⟩ := halfedgeCotanWeights_ok (len := len) hv R
  obtain ⟨A, a1, a2⟩ := faceAreas_ok (len := len) R
  obtain ⟨r, r1, -, r2, r3⟩ := nested_faces hv R
  obtain ⟨vec0, v1, v2, v3, -⟩ := halfedgeVectorsInFace_ok (nan := ⟨0, 0⟩) hv ht hm R
  set ind := number es with hind
  set s : ℕ → ℝ := fun he => if (m.heNext he % 2 = 0 ↔ m.heNext (m.heNext he) % 2 = 0) then 1 else -1 with hs'
  set rot : ℕ → ℂ := fun he =>
    ⟨-((len (heEdge (m.heNext (m.heNext he))) * len (heEdge (m.heNext (m.heNext he))) + len (heEdge (m.heNext he)) * len (heEdge (m.heNext he)) -
      len (heEdge he) * len (heEdge he)) / (2 * len (heEdge (m.heNext (m.heNext he))) * len (heEdge (m.heNext he)))),
      2 * A (m.heFace he) / (len (heEdge (m.heNext (m.heNext he))) * len (heEdge (m.heNext he)))⟩ with hrot
  set T : List (Triplet ℂ) := r.flatMap (fun p =>
    let he := p.2
    let heA := m.heNext he
    let heB := m.heNext heA
    let i := ind (heEdge heA)
    let j := ind (heEdge heB)
    let weight := 4 * w he
    let s : ℝ := if (heA % 2 = 0 ↔ heB % 2 = 0) then 1 else -1
    let lOpp := len (heEdge he)
    let lA := len (heEdge heB)
    let lB := len (heEdge heA)
    let cosTheta := (lA * lA + lB * lB - lOpp * lOpp) / (2 * lA * lB)
    let sinTheta := 2 * A p.1 / (lA * lB)
    let rot : ℂ := ⟨-cosTheta, sinTheta⟩
    [(i, i, (weight : ℂ)), (j, j, (weight : ℂ)), (i, j, -weight * rot * s), (j, i, -weight * starRingEnd ℂ rot * s)]) with hT
  have bd : ∀ t ∈ T, t.1 < m.nE ∧ t.2.1 < m.nE := by
    intro t ht
    obtain ⟨p, hp, q⟩ := List.mem_flatMap.1 ht
    obtain ⟨-, i0⟩ := r2 p hp
    have i1 := int_next hv i0
    have i2 := int_next hv i1
    have b1 := R.ie.2.1 _ (edge_live hv (mem_ints.1 i1).1)
    have b2 := R.ie.2.1 _ (edge_live hv (mem_ints.1 i2).1)
    simp only [List.mem_cons, List.not_mem_nil, or_false] at q
    rcases q with rfl | rfl | rfl | rfl
    · exact ⟨b1, b1⟩
    · exact ⟨b2, b2⟩
    · exact ⟨b1, b2⟩
    · exact ⟨b2, b1⟩
  have ok : m.crouzeixRaviartConnectionLaplacian len = .ok (entry T) := by
    simp only [crouzeixRaviartConnectionLaplacian, bind, Except.bind, w1, a1, R.ie.1, R.f, r1]
    exact setFromTriplets_ok bd
  have form : ∀ x y : ℕ → ℂ, ∑ i ∈ range m.nE, ∑ j ∈ range m.nE, x i * entry T i j * y j =
      ∑ h ∈ m.ints, (4 * m.halfedgeCotanWeight len h : ℂ) * (
        let a := ind (heEdge (m.heNext h)); let b := ind (heEdge (m.heNext (m.heNext h)))
        x a * y a + x b * y b - x a * (rot h * s h) * y b - x b * (starRingEnd ℂ (rot h) * s h) * y a) := by
    intro x y
    rw [entry_pair bd, hT, sum_flatMap, r3]
    refine sum_congr rfl (fun h hh => ?_)
    simp only [List.map_cons, List.map_nil, List.sum_cons, List.sum_nil]
    rw [w2, if_pos hh]
    simp only [hrot, hs']
    push_cast
    ring
  -- the form as an energy, for any oriented layout
  have energy : ∀ (z : ℕ → ℂ) (vec : ℕ → V2) (Z : ℕ → ℂ), m.Layout len vec →
      (∀ h, m.heLive h → ¬ m.ext h → (vec h).cross (vec (m.heNext h)) = 2 * m.faceArea len (m.heFace h)) →
      (∀ h, m.heLive h → ¬ m.ext h → Z h * len (h / 2) = (if h % 2 = 0 then 1 else -1) * z (ind (h / 2)) * (vec h).toC) →
      ∑ i ∈ range m.nE, ∑ j ∈ range m.nE, starRingEnd ℂ (z i) * entry T i j * z j =
        ((∑ h ∈ m.ints, m.halfedgeCotanWeight len h * (2 * ((Z (m.heNext h)).re - (Z (m.heNext (m.heNext h))).re)) ^ 2 +
          ∑ h ∈ m.ints, m.halfedgeCotanWeight len h * (2 * ((Z (m.heNext h)).im - (Z (m.heNext (m.heNext h))).im)) ^ 2 : ℝ) : ℂ) := by
    intro z vec Z hl hc hZ
    rw [form (fun i => starRingEnd ℂ (z i)) z, ← sum_add_distrib, Complex.ofReal_sum]
    refine sum_congr rfl (fun h hh => ?_)
    have hA := int_next hv hh
    have hB := int_next hv hA
    obtain ⟨l0, x0⟩ := mem_ints.1 hh
    obtain ⟨lA, xA⟩ := mem_ints.1 hA
    obtain ⟨lB, xB⟩ := mem_ints.1 hB
    have cl := hl.close h l0 x0
    have c2 := hc _ lA xA
    rw [hv.face_next l0] at c2
    have fa : A (m.heFace h) = m.faceArea len (m.heFace h) := by rw [a2, if_pos (int_face hv hh)]
    have pA := len_pos hv hm lA
    have pB := len_pos hv hm lB
    have n0 := V2.norm_sq (vec h)
    have nA := V2.norm_sq (vec (m.heNext h))
    have nB := V2.norm_sq (vec (m.heNext (m.heNext h)))
    rw [hl.norm _ l0 x0] at n0
    rw [hl.norm _ lA xA] at nA
    rw [hl.norm _ lB xB] at nB
    have zA := hZ _ lA xA
    have zB := hZ _ lB xB
    have eR : rot h = ⟨-((len (heEdge (m.heNext (m.heNext h))) * len (heEdge (m.heNext (m.heNext h))) + len (heEdge (m.heNext h)) * len (heEdge (m.heNext h)) -
      len (heEdge h) * len (heEdge h)) / (2 * len (heEdge (m.heNext (m.heNext h))) * len (heEdge (m.heNext h)))),
      2 * A (m.heFace h) / (len (heEdge (m.heNext (m.heNext h))) * len (heEdge (m.heNext h)))⟩ := rfl
    have eS : s h = (if m.heNext h % 2 = 0 then 1 else -1) * (if m.heNext (m.heNext h) % 2 = 0 then 1 else -1) := by
      simp only [hs']
      rcases Nat.mod_two_eq_zero_or_one (m.heNext h) with p | p <;> rcases Nat.mod_two_eq_zero_or_one (m.heNext (m.heNext h)) with q | q <;>
        simp [p, q]
    rw [eR, eS, fa]
    have sA : ∃ t : ℝ, t * t = 1 ∧ (if m.heNext h % 2 = 0 then (1 : ℝ) else -1) = t ∧ (if m.heNext h % 2 = 0 then (1 : ℂ) else -1) = t := by
      split
      · exact ⟨1, by norm_num, rfl, by norm_num⟩
      · exact ⟨-1, by norm_num, rfl, by norm_num⟩
    have sB : ∃ t : ℝ, t * t = 1 ∧ (if m.heNext (m.heNext h) % 2 = 0 then (1 : ℝ) else -1) = t ∧ (if m.heNext (m.heNext h) % 2 = 0 then (1 : ℂ) else -1) = t := by
      split
      · exact ⟨1, by norm_num, rfl, by norm_num⟩
      · exact ⟨-1, by norm_num, rfl, by norm_num⟩
    obtain ⟨σA, sA1, sA2, sA3⟩ := sA
    obtain ⟨σB, sB1, sB2, sB3⟩ := sB
    rw [sA2, sB2]
    rw [sA3] at zA
    rw [sB3] at zB
    exact cr_term cl n0 nA nB c2 pA pB sA1 sB1 zA zB
  refine ⟨entry T, ind, ok, R.ie.1, fun i hi j hj => ?_, fun z => ?_, fun z vec gx gy Z hl hc hZ hg => ?_⟩
  · rw [← pair_unit (entry T) hi hj, ← pair_unit (entry T) hj hi, form, form, map_sum]
    refine sum_congr rfl (fun h _ => ?_)
    simp only [map_sub, map_add, map_mul, conj_delta, Complex.conj_ofReal, Complex.conj_conj, map_ofNat]
    ring
  · set Z : ℕ → ℂ := fun h => (if h % 2 = 0 then 1 else -1) * z (ind (h / 2)) * (vec0 h).toC / len (h / 2) with hZ
    have := energy z vec0 Z v2 (fun h a b => v3 h (mem_ints.2 ⟨a, b⟩)) (fun h a b => by
      have p0 : (len (h / 2) : ℂ) ≠ 0 := by exact_mod_cast (len_pos hv hm a).ne'
      simp only [hZ]; rw [div_mul_cancel₀ _ p0])
    refine ⟨_, ?_, this⟩
    refine add_nonneg (form_nonneg hv ht hm (fun h hh => ?_)).1 (form_nonneg hv ht hm (fun h hh => ?_)).1
    · rw [ht h (mem_ints.1 hh).1 (mem_ints.1 hh).2]; ring
    · rw [ht h (mem_ints.1 hh).1 (mem_ints.1 hh).2]; ring
  · rw [energy z vec Z hl hc hZ, form_energy hv ht hm hl (g := gx) (fun h a b => ?_), form_energy hv ht hm hl (g := gy) (fun h a b => ?_)]
    · congr 1
      have eF : ({f ∈ range m.nFFill | m.fLive f} : Finset ℕ) = m.faces := rfl
      rw [eF, ← sum_add_distrib]
      exact sum_congr rfl (fun f _ => by ring)
    · rw [← (hg h a b).2]; unfold V2.dot V2.smul; ring
    · rw [← (hg h a b).1]; unfold V2.dot V2.smul; ring

/-- Every closed set of differences is that of a gradient, so the gradients in C65 and C68 exist for all data. -/
theorem gradient_exists (m : Mesh) (len : ℕ → ℝ) (hv : m.Valid) (ht : m.TriFaces) (hm : m.Metric len) (vec : ℕ → V2) (hl : m.Layout len vec)
    (hc : ∀ h, m.heLive h → ¬ m.ext h → (vec h).cross (vec (m.heNext h)) = 2 * m.faceArea len (m.heFace h)) (d : ℕ → ℝ)
    (hd : ∀ h, m.heLive h → ¬ m.ext h → d h + d (m.heNext h) + d (m.heNext (m.heNext h)) = 0) :
    ∃ g : ℕ → V2, ∀ h, m.heLive h → ¬ m.ext h → (g (m.heFace h)).dot (vec h) = d h := by
  set D : ℕ → ℝ := fun f => (vec (m.fHalfedge f)).cross (vec (m.heNext (m.fHalfedge f))) with hD
  refine ⟨fun f => ⟨(d (m.fHalfedge f) * (vec (m.heNext (m.fHalfedge f))).y - d (m.heNext (m.fHalfedge f)) * (vec (m.fHalfedge f)).y) / D f,
    (d (m.heNext (m.fHalfedge f)) * (vec (m.fHalfedge f)).x - d (m.fHalfedge f) * (vec (m.heNext (m.fHalfedge f))).x) / D f⟩, fun h a b => ?_⟩
  have hf := int_face hv (mem_ints.2 ⟨a, b⟩)
  obtain ⟨q1, q2⟩ := mem_faces.1 hf
  obtain ⟨l0, e0⟩ := hv.f_he _ q1
  have x0 : ¬ m.ext (m.fHalfedge (m.heFace h)) := face_not_ext hv (by rw [e0]; exact q2)
  have D0 : D (m.heFace h) ≠ 0 := by
    simp only [hD]
    rw [hc _ l0 x0, e0]
    have := faceArea_pos hv hm hf
    positivity
  have cl := hl.close _ l0 x0
  have cd := hd _ l0 x0
  have eD : D (m.heFace h) = (vec (m.fHalfedge (m.heFace h))).x * (vec (m.heNext (m.fHalfedge (m.heFace h)))).y -
    (vec (m.fHalfedge (m.heFace h))).y * (vec (m.heNext (m.fHalfedge (m.heFace h)))).x := rfl
  have cx := congrArg V2.x cl
  have cy := congrArg V2.y cl
  unfold V2.add at cx cy
  simp only at cx cy
  have q := hv.tri_mem l0 a (ht _ l0 x0) e0.symm
  generalize m.heFace h = f at *
  unfold V2.dot
  rcases q with q | q | q <;> rw [q] <;> field_simp
  · rw [eD]; ring
  · rw [eD]; ring
  · rw [eD]
    linear_combination (d (m.fHalfedge f) * (vec (m.heNext (m.fHalfedge f))).y - d (m.heNext (m.fHalfedge f)) * (vec (m.fHalfedge f)).y) * cx +
      (d (m.heNext (m.fHalfedge f)) * (vec (m.fHalfedge f)).x - d (m.fHalfedge f) * (vec (m.heNext (m.fHalfedge f))).x) * cy -
      ((vec (m.fHalfedge f)).x * (vec (m.heNext (m.fHalfedge f))).y - (vec (m.fHalfedge f)).y * (vec (m.heNext (m.fHalfedge f))).x) * cd

/-- The hypotheses of C68: a closed mesh and one with boundary, both with unit lengths. -/
example : tetra.Valid ∧ tetra.TriFaces ∧ tetra.Metric (fun _ => 1) ∧ tetra.nF ≤ 2 ^ 32 ∧ square.Valid ∧ square.TriFaces ∧
    square.Metric (fun _ => 1) ∧ square.nF ≤ 2 ^ 32 :=
  ⟨tetra_valid, tetra_tri, metric_one _, by decide, square_valid, square_tri, metric_one _, by decide⟩

/-- The hypotheses of the last part of `C68_edge`: a layout, the vectors `Z` and the gradients exist for all data `z`. -/
example (z : ℕ → ℂ) : ∃ (vec gx gy : ℕ → V2) (Z : ℕ → ℂ), tetra.Layout (fun _ => 1) vec ∧
    (∀ h, tetra.heLive h → ¬ tetra.ext h → (vec h).cross (vec (tetra.heNext h)) = 2 * tetra.faceArea (fun _ => 1) (tetra.heFace h)) ∧
    (∀ h, tetra.heLive h → ¬ tetra.ext h → Z h * ((1 : ℝ) : ℂ) = (if h % 2 = 0 then 1 else -1) * z (h / 2) * (vec h).toC) ∧
    (∀ h, tetra.heLive h → ¬ tetra.ext h →
      (gx (tetra.heFace h)).dot ((vec h).smul (1 / 2)) = (Z (tetra.heNext h)).re - (Z (tetra.heNext (tetra.heNext h))).re ∧
      (gy (tetra.heFace h)).dot ((vec h).smul (1 / 2)) = (Z (tetra.heNext h)).im - (Z (tetra.heNext (tetra.heNext h))).im) := by
  obtain ⟨vs, hs, is, es, fs, R⟩ := tetra_valid.ranges
  obtain ⟨vec, -, v2, v3, -⟩ := halfedgeVectorsInFace_ok (nan := ⟨0, 0⟩) tetra_valid tetra_tri (metric_one _) R
  set Z : ℕ → ℂ := fun h => (if h % 2 = 0 then 1 else -1) * z (h / 2) * (vec h).toC with hZ
  have c := fun h a b => v3 h (mem_ints.2 ⟨a, b⟩)
  have sm : ∀ (g v : V2), g.dot (v.smul (1 / 2)) = g.dot v / 2 := by intro g v; unfold V2.dot V2.smul; ring
  obtain ⟨gx, h1⟩ := gradient_exists tetra _ tetra_valid tetra_tri (metric_one _) vec v2 c
    (fun h => 2 * ((Z (tetra.heNext h)).re - (Z (tetra.heNext (tetra.heNext h))).re)) (fun h a b => by
      rw [tetra_tri h a b]; ring)
  obtain ⟨gy, h2⟩ := gradient_exists tetra _ tetra_valid tetra_tri (metric_one _) vec v2 c
    (fun h => 2 * ((Z (tetra.heNext h)).im - (Z (tetra.heNext (tetra.heNext h))).im)) (fun h a b => by
      rw [tetra_tri h a b]; ring)
  refine ⟨vec, gx, gy, Z, v2, c, fun h a b => by simp [hZ], fun h a b => ⟨?_, ?_⟩⟩
  · rw [sm, h1 h a b]; ring
  · rw [sm, h2 h a b]; ring

end Mesh
end GC
