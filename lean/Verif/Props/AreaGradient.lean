import Verif.Props.Normals
import Verif.Props.Connect
import Verif.Props.Triangulate
import Mathlib.Analysis.SpecialFunctions.Sqrt
import Mathlib.Analysis.Calculus.Deriv.Mul
import Mathlib.Analysis.Calculus.Deriv.Add
import Mathlib.Analysis.Calculus.Deriv.Pow

/-! # C71 and C72: normals of polygons, and the gradient of the area -/

namespace GC
open Classical Finset

theorem V3.ext_dot {u v : V3} (h : ∀ c : V3, c.dot u = c.dot v) : u = v := by
  have h1 := h ⟨1, 0, 0⟩
  have h2 := h ⟨0, 1, 0⟩
  have h3 := h ⟨0, 0, 1⟩
  simp only [V3.dot, one_mul, zero_mul, add_zero, zero_add] at h1 h2 h3
  ext <;> assumption

namespace Mesh
variable {m : Mesh} {pos : ℕ → V3} {vs hs is es fs : List ℕ}

/-! ## C72 -/

/-- The positions moved along a direction. -/
def moved (pos dir : ℕ → V3) (t : ℝ) (v : ℕ) : V3 := (pos v).add ((dir v).smul t)

/-- The derivative of twice the vector area. -/
def area2' (m : Mesh) (pos dir : ℕ → V3) (h : ℕ) : V3 :=
  (((dir (m.heVertex (m.heNext h))).sub (dir (m.heVertex h))).cross ((pos (m.heVertex (m.heNext (m.heNext h)))).sub (pos (m.heVertex h)))).add
    (((pos (m.heVertex (m.heNext h))).sub (pos (m.heVertex h))).cross ((dir (m.heVertex (m.heNext (m.heNext h)))).sub (dir (m.heVertex h))))

theorem area2_moved (dir : ℕ → V3) (h : ℕ) (t : ℝ) :
    m.area2 (moved pos dir t) h = ((m.area2 pos h).add ((m.area2' pos dir h).smul t)).add ((m.area2 dir h).smul (t ^ 2)) := by
  simp only [area2, area2', moved, V3.cross, V3.sub, V3.add, V3.smul]
  ext <;> simp only <;> ring

theorem norm_deriv {a b c : V3} (ha : a ≠ V3.zero) : HasDerivAt (fun t : ℝ => ((a.add (b.smul t)).add (c.smul (t ^ 2))).norm) (a.dot b / a.norm) 0 := by
  have e : (fun t : ℝ => ((a.add (b.smul t)).add (c.smul (t ^ 2))).norm) = fun t : ℝ => Real.sqrt (a.dot a + (2 * a.dot b) * t +
      (b.dot b + 2 * a.dot c) * t ^ 2 + (2 * b.dot c) * t ^ 3 + c.dot c * t ^ 4) := by
    funext t
    unfold V3.norm
    congr 1
    simp only [V3.dot, V3.add, V3.smul]
    ring
  rw [e]
  have p := V3.dot_self_pos ha
  have d : HasDerivAt (fun t : ℝ => a.dot a + (2 * a.dot b) * t + (b.dot b + 2 * a.dot c) * t ^ 2 + (2 * b.dot c) * t ^ 3 + c.dot c * t ^ 4)
      (2 * a.dot b) 0 := by
    have h1 := HasDerivAt.const_mul (2 * a.dot b) (hasDerivAt_id (0:ℝ))
    have h2 := HasDerivAt.const_mul (b.dot b + 2 * a.dot c) (hasDerivAt_pow 2 (0:ℝ))
    have h3 := HasDerivAt.const_mul (2 * b.dot c) (hasDerivAt_pow 3 (0:ℝ))
    have h4 := HasDerivAt.const_mul (c.dot c) (hasDerivAt_pow 4 (0:ℝ))
    have h0 := hasDerivAt_const (0:ℝ) (a.dot a)
    have := HasDerivAt.add (HasDerivAt.add (HasDerivAt.add (HasDerivAt.add h0 h1) h2) h3) h4
    refine (this.congr_deriv (by simp))
  have := d.sqrt (by simp; exact p.ne')
  refine this.congr_deriv ?_
  have : a.norm = Real.sqrt (a.dot a) := rfl
  rw [this]
  have : Real.sqrt (a.dot a) ≠ 0 := (Real.sqrt_pos.2 p).ne'
  simp
  field_simp

/-- The change of the area of a triangle, by its cotangents. -/
theorem area_change (ht : m.TriFaces) (dir : ℕ → V3) {h : ℕ} (hl : m.heLive h) (hx : ¬ m.ext h) :
    (m.area2 pos h).dot (m.area2' pos dir h) =
      ((pos (m.heVertex h)).sub (pos (m.heVertex (m.heNext (m.heNext h))))).dot ((pos (m.heVertex (m.heNext h))).sub (pos (m.heVertex (m.heNext (m.heNext h))))) *
        (m.along pos h).dot (m.along dir h) +
      ((pos (m.heVertex (m.heNext h))).sub (pos (m.heVertex h))).dot ((pos (m.heVertex (m.heNext (m.heNext h)))).sub (pos (m.heVertex h))) *
        (m.along pos (m.heNext h)).dot (m.along dir (m.heNext h)) +
      ((pos (m.heVertex (m.heNext (m.heNext h)))).sub (pos (m.heVertex (m.heNext h)))).dot ((pos (m.heVertex h)).sub (pos (m.heVertex (m.heNext h)))) *
        (m.along pos (m.heNext (m.heNext h))).dot (m.along dir (m.heNext (m.heNext h))) := by
  unfold along area2 area2'
  rw [ht h hl hx]
  simp only [V3.dot, V3.cross, V3.sub, V3.add]
  ring

theorem cot_area2 (ht : m.TriFaces) {h : ℕ} (hl : m.heLive h) (hx : ¬ m.ext h) : m.halfedgeCotanWeightP pos h =
    ((pos (m.heVertex h)).sub (pos (m.heVertex (m.heNext (m.heNext h))))).dot ((pos (m.heVertex (m.heNext h))).sub (pos (m.heVertex (m.heNext (m.heNext h))))) /
      (m.area2 pos h).norm / 2 := by
  unfold halfedgeCotanWeightP
  rw [if_pos (heInterior_iff.2 hx)]
  simp only
  congr 2
  unfold area2 V3.norm
  congr 1
  simp only [V3.cross, V3.sub]
  ring

theorem faceAreasE_ok (hv : m.Valid) (ht : m.TriFaces) (R : m.Ranges vs hs is es fs) (pos : ℕ → V3) :
    m.faceAreasE pos = .ok (assign (fun _ => 0) (fun f => 0.5 * (m.area2 pos (m.fHalfedge f)).norm) fs) := by
  unfold faceAreasE
  rw [R.f]
  show assignM _ _ fs = _
  refine assignM_ok (fun f hf => ?_) _
  have hf := (R.mf f).1 hf
  obtain ⟨q1, q2⟩ := mem_faces.1 hf
  obtain ⟨l0, e0⟩ := hv.f_he f q1
  have x0 : ¬ m.ext (m.fHalfedge f) := face_not_ext hv (by rw [e0]; exact q2)
  simp only [nav_tri hv ht hf, bind, Except.bind, List.foldl_cons, List.foldl_nil]
  rw [ht _ l0 x0]
  congr 3
  unfold area2
  simp only [V3.add, V3.cross, V3.sub]
  ext <;> simp only <;> ring

/-- **C72.** The mean curvature normals, cached or immediate, are half the gradient of the area: when the vertices move with the velocities `dir`, the total
area changes at the rate Σ 2 H_v · dir_v. -/
theorem C72_area_gradient (m : Mesh) (pos dir : ℕ → V3) (hv : m.Valid) (ht : m.TriFaces) (hn : m.NonDegenerate pos) :
    ∃ (A : ℝ → ℕ → ℝ) (H : ℕ → V3), (∀ t, m.faceAreasE (fun v => (pos v).add ((dir v).smul t)) = .ok (A t)) ∧
      m.vertexDualMeanCurvatureNormalsE pos = .ok H ∧ (∀ v, m.vLive v → m.vertexDualMeanCurvatureNormalP pos v = .ok (H v)) ∧
      HasDerivAt (fun t => ∑ f ∈ range m.nFFill with m.fLive f, A t f) (∑ v ∈ range m.nVFill with m.vLive v, 2 * (H v).dot (dir v)) 0 := by
  obtain ⟨vs, hs, is, es, fs, R⟩ := hv.ranges
  obtain ⟨len, l1, l2, F⟩ := edgeLengthsE_ok hv ht hn R
  obtain ⟨w, w1, w2⟩ := edgeCotanWeights_ok (len := len) hv R
  obtain ⟨len', l1', -, -, -, -, -, c1, c2, -⟩ := C69_positions m pos hv ht hn
  rw [l1] at l1'; injection l1' with l1'; subst l1'
  set H : ℕ → V3 := es.foldl (fun (d : ℕ → V3) e =>
    let w := w e
    let vTail := m.heVertex (eHalfedge e)
    let vTip := m.heVertex (m.heNext (eHalfedge e))
    let pTail := pos vTail
    let pTip := pos vTip
    let d := Function.update d vTail ((d vTail).add ((V3.lmul w (pTail.sub pTip)).sdiv 2))
    Function.update d vTip ((d vTip).add ((V3.lmul w (pTip.sub pTail)).sdiv 2))) (fun _ => ⟨0, 0, 0⟩) with hH
  -- the contribution of a halfedge to its tail
  set G : ℕ → V3 → ℝ := fun i c => w (heEdge i) * c.dot ((pos (m.heVertex i)).sub (pos (m.heVertex (m.heNext i)))) / 2 with hG
  have acc : ∀ (c : V3) (x : ℕ) (l : List ℕ) (d : ℕ → V3), (∀ e ∈ l, m.heLive (2 * e)) → c.dot (l.foldl (fun d e =>
      let w := w e
      let vTail := m.heVertex (eHalfedge e)
      let vTip := m.heVertex (m.heNext (eHalfedge e))
      let pTail := pos vTail
      let pTip := pos vTip
      let d := Function.update d vTail ((d vTail).add ((V3.lmul w (pTail.sub pTip)).sdiv 2))
      Function.update d vTip ((d vTip).add ((V3.lmul w (pTip.sub pTail)).sdiv 2))) d x) = c.dot (d x) +
      (l.map (fun e => (if m.heVertex (2 * e) = x then G (2 * e) c else 0) + (if m.heVertex (2 * e + 1) = x then G (2 * e + 1) c else 0))).sum := by
    intro c x l
    induction l with
    | nil => intro d _; simp
    | cons e l ih =>
      intro d hl
      have he := hl e List.mem_cons_self
      rw [List.foldl_cons, ih _ (fun y hy => hl y (List.mem_cons_of_mem _ hy)), List.map_cons, List.sum_cons, ← add_assoc]
      congr 1
      have t1 : m.heVertex (m.heNext (2 * e)) = m.heVertex (2 * e + 1) := by rw [hv.vertex_next he, twin_two_mul]
      have t2 : m.heVertex (m.heNext (2 * e + 1)) = m.heVertex (2 * e) := by
        have := hv.vertex_next (hv.twin_live _ he)
        rw [twin_twin, twin_two_mul] at this; exact this
      have d1 : heEdge (2 * e) = e := by unfold heEdge; omega
      have d2 : heEdge (2 * e + 1) = e := by unfold heEdge; omega
      simp only [eHalfedge, hG, t1, t2, d1, d2]
      generalize m.heVertex (2 * e) = a
      generalize m.heVertex (2 * e + 1) = b
      by_cases q1 : a = x <;> by_cases q2 : b = x
      · subst q1; subst q2
        rw [Function.update_self, Function.update_self, if_pos rfl]
        simp only [V3.dot, V3.add, V3.lmul, V3.sub, V3.sdiv]; ring
      · subst q1
        rw [Function.update_of_ne (Ne.symm q2), Function.update_self, if_pos rfl, if_neg q2]
        simp only [V3.dot, V3.add, V3.lmul, V3.sub, V3.sdiv]; ring
      · subst q2
        rw [Function.update_self, Function.update_of_ne (Ne.symm q1), if_pos rfl, if_neg q1]
        simp only [V3.dot, V3.add, V3.lmul, V3.sub, V3.sdiv]; ring
      · rw [Function.update_of_ne (Ne.symm q2), Function.update_of_ne (Ne.symm q1), if_neg q1, if_neg q2]
        ring
  have Hv : ∀ (c : V3) (v : ℕ), c.dot (H v) = ∑ i ∈ m.hes with m.heVertex i = v, G i c := by
    intro c v
    rw [hH, acc c v es _ (fun e he => (mem_edges hv).1 ((R.me e).1 he)), sum_of_nodup R.ne R.me,
      sum_edges hv (fun i => if m.heVertex i = v then G i c else 0), sum_filter]
    simp [V3.dot]
  refine ⟨fun t => assign (fun _ => 0) (fun f => 0.5 * (m.area2 (moved pos dir t) (m.fHalfedge f)).norm) fs, H,
    fun t => faceAreasE_ok hv ht R _, ?_, fun v hl => ?_, ?_⟩
  · simp only [vertexDualMeanCurvatureNormalsE, bind, Except.bind, c1, w1, R.e]
    rfl
  · obtain ⟨L, k1, k2, k3, -⟩ := C49_vertex_outgoing m hv v hl
    have loop : ∀ (l : List ℕ) (s : V3), (∀ h ∈ l, m.heLive h ∧ m.heVertex h = v) → ∃ u, l.foldlM (m := Res) (fun hN he => do
        let w ← m.edgeCotanWeightP pos (heEdge he)
        .ok (V3.add hN ((V3.lmul w ((pos v).sub (pos (m.heVertex (m.heNext he))))).sdiv 2))) s = .ok u ∧
        ∀ c : V3, c.dot u = c.dot s + (l.map (fun i => G i c)).sum := by
      intro l
      induction l with
      | nil => intro s _; exact ⟨s, rfl, fun c => by simp⟩
      | cons h l ih =>
        intro s hl
        obtain ⟨hh, hvx⟩ := hl h List.mem_cons_self
        obtain ⟨-, w', w1', w3'⟩ := c2 (heEdge h) (edge_live hv hh)
        rw [w1] at w1'; injection w1' with w1'; subst w1'
        obtain ⟨u, u1, u2⟩ := ih (V3.add s ((V3.lmul (w (heEdge h)) ((pos v).sub (pos (m.heVertex (m.heNext h))))).sdiv 2))
          (fun x hx => hl x (List.mem_cons_of_mem _ hx))
        refine ⟨u, ?_, fun c => ?_⟩
        · simp only [List.foldlM_cons, bind, Except.bind, w3'] at u1 ⊢
          exact u1
        · rw [u2, List.map_cons, List.sum_cons, ← add_assoc]
          congr 1
          rw [show G h c = w (heEdge h) * c.dot ((pos (m.heVertex h)).sub (pos (m.heVertex (m.heNext h)))) / 2 from rfl, hvx]
          simp only [V3.dot, V3.add, V3.lmul, V3.sub, V3.sdiv]
          ring
    obtain ⟨u, u1, u2⟩ := loop L ⟨0, 0, 0⟩ (fun h hh => (k3 h).1 hh)
    simp only [vertexDualMeanCurvatureNormalP, bind, Except.bind, k1] at u1 ⊢
    rw [u1]
    congr 1
    refine V3.ext_dot (fun c => ?_)
    rw [u2, Hv, sum_of_nodup (S := {i ∈ m.hes | m.heVertex i = v}) k2 (fun i => by rw [k3, mem_filter, mem_hes])]
    simp [V3.dot]
  · have eF : ({f ∈ range m.nFFill | m.fLive f} : Finset ℕ) = m.faces := by
      ext f
      rw [mem_filter, mem_range, mem_faces]
      exact and_comm
    have eV : ({v ∈ range m.nVFill | m.vLive v} : Finset ℕ) = m.verts := rfl
    rw [eF, eV]
    -- the rate of the area, halfedge by halfedge
    have rate : ∑ v ∈ m.verts, 2 * (H v).dot (dir v) = ∑ i ∈ m.ints, m.halfedgeCotanWeight len i * (m.along pos i).dot (m.along dir i) := by
      have a1 : ∀ v ∈ m.verts, 2 * (H v).dot (dir v) = ∑ i ∈ m.hes with m.heVertex i = v, 2 * G i (dir (m.heVertex i)) := by
        intro v _
        have : (H v).dot (dir v) = (dir v).dot (H v) := by simp only [V3.dot]; ring
        rw [this, Hv, mul_sum]
        exact sum_congr rfl (fun i hi => by rw [(mem_filter.1 hi).2])
      rw [sum_congr rfl a1, sum_fiberwise_of_maps_to (fun h hh => mem_verts.2 (hv.vertex_live h (mem_hes.1 hh))), ← sum_edges hv]
      have a2 : ∀ e ∈ m.edges, 2 * G (2 * e) (dir (m.heVertex (2 * e))) + 2 * G (2 * e + 1) (dir (m.heVertex (2 * e + 1))) =
          ∑ i ∈ m.ints with heEdge i = e, m.halfedgeCotanWeight len i * (m.along pos i).dot (m.along dir i) := by
        intro e he
        have he := (mem_edges hv).1 he
        have t1 : m.heVertex (m.heNext (2 * e)) = m.heVertex (2 * e + 1) := by rw [hv.vertex_next he, twin_two_mul]
        have t2 : m.heVertex (m.heNext (2 * e + 1)) = m.heVertex (2 * e) := by
          have := hv.vertex_next (hv.twin_live _ he)
          rw [twin_twin, twin_two_mul] at this; exact this
        have d1 : heEdge (2 * e) = e := by unfold heEdge; omega
        have d2 : heEdge (2 * e + 1) = e := by unfold heEdge; omega
        have b : ∑ i ∈ m.ints with heEdge i = e, m.halfedgeCotanWeight len i * (m.along pos i).dot (m.along dir i) =
            ∑ i ∈ m.ints with heEdge i = e, m.halfedgeCotanWeight len i * (m.along pos (2 * e)).dot (m.along dir (2 * e)) := by
          refine sum_congr rfl (fun i hi => ?_)
          obtain ⟨i1, i2⟩ := mem_filter.1 hi
          have : i = 2 * e ∨ i = twin (2 * e) := by
            rw [twin_two_mul]; unfold heEdge at i2; omega
          rcases this with rfl | rfl
          · rfl
          · rw [along_twin hv he, along_twin hv he]
            simp only [V3.dot, V3.neg]; ring
        rw [b, ← sum_mul, ← w2]
        simp only [hG, along, t1, t2, d1, d2, V3.dot, V3.sub]
        ring
      rw [sum_congr rfl a2, sum_fiberwise_of_maps_to (fun i hi => (mem_edges hv).2 (edge_live hv (mem_ints.1 hi).1))]
    rw [rate, ← sum_faces hv ht]
    have val : (fun t => ∑ f ∈ m.faces, assign (fun _ => 0) (fun f => 0.5 * (m.area2 (moved pos dir t) (m.fHalfedge f)).norm) fs f) =
        fun t => ∑ f ∈ m.faces, 0.5 * (((m.area2 pos (m.fHalfedge f)).add ((m.area2' pos dir (m.fHalfedge f)).smul t)).add ((m.area2 dir (m.fHalfedge f)).smul (t ^ 2))).norm := by
      funext t
      refine sum_congr rfl (fun f hf => ?_)
      rw [assign_apply, if_pos ((R.mf f).2 hf), area2_moved]
    show HasDerivAt (fun t => ∑ f ∈ m.faces, assign (fun _ => 0) (fun f => 0.5 * (m.area2 (moved pos dir t) (m.fHalfedge f)).norm) fs f) _ 0
    rw [val]
    refine HasDerivAt.fun_sum (fun f hf => ?_)
    obtain ⟨q1, q2⟩ := mem_faces.1 hf
    obtain ⟨l0, e0⟩ := hv.f_he f q1
    have x0 : ¬ m.ext (m.fHalfedge f) := face_not_ext hv (by rw [e0]; exact q2)
    have i0 := mem_ints.2 ⟨l0, x0⟩
    have i1 := int_next hv i0
    have i2 := int_next hv i1
    have nz : m.area2 pos (m.fHalfedge f) ≠ V3.zero := hn _ l0 x0
    have := (norm_deriv (b := m.area2' pos dir (m.fHalfedge f)) (c := m.area2 dir (m.fHalfedge f)) nz).const_mul (0.5 : ℝ)
    refine this.congr_deriv ?_
    rw [area_change ht dir l0 x0, ← cot3 hv ht F i0, ← cot3 hv ht F i1, ← cot3 hv ht F i2, cot_area2 ht l0 x0,
      cot_area2 ht (mem_ints.1 i1).1 (mem_ints.1 i1).2, cot_area2 ht (mem_ints.1 i2).1 (mem_ints.1 i2).2, area2_next ht i1, area2_next ht i0,
      ht _ l0 x0]
    have := (V3.norm_pos nz).ne'
    field_simp
    ring

/-- The hypotheses of C72. -/
example : tetra.Valid ∧ tetra.TriFaces ∧ tetra.NonDegenerate tetraPos := ⟨tetra_valid, tetra_tri, tetraPos_nonDegenerate⟩

/-! ## C71 -/

/-- The loop over a face that is not a triangle. -/
theorem normalLoop_poly (l : List ℕ) (hl : ∀ h ∈ l, m.heNext (m.heNext (m.heNext h)) ≠ h) (s : V3) :
    m.normalLoop pos l s = l.foldl (fun s h => s.add (m.area2 pos h)) s := by
  induction l generalizing s with
  | nil => rfl
  | cons h l ih =>
    unfold normalLoop
    simp only
    rw [if_neg (hl h List.mem_cons_self), ih (fun x hx => hl x (List.mem_cons_of_mem _ hx))]
    rfl

/-- Twice the vector area of a polygon, by the shoelace formula; half its norm is what `computeFaceAreas` stores. -/
def shoelace (m : Mesh) (pos : ℕ → V3) (l : List ℕ) : V3 :=
  l.foldl (fun s h => s.add ((pos (m.heVertex h)).cross (pos (m.heVertex (m.heNext h))))) ⟨0, 0, 0⟩

theorem V3.normalize_smul_pos {u : V3} {k : ℝ} (hk : 0 < k) : (u.smul k).normalize = u.normalize := by
  unfold V3.normalize V3.smul
  simp only
  have e : u.x * k * (u.x * k) + u.y * k * (u.y * k) + u.z * k * (u.z * k) = k ^ 2 * (u.x * u.x + u.y * u.y + u.z * u.z) := by ring
  rw [e, Real.sqrt_mul (by positivity), Real.sqrt_sq hk.le]
  have : ∀ a : ℝ, a * k * (1 / (k * Real.sqrt (u.x * u.x + u.y * u.y + u.z * u.z))) = a * (1 / Real.sqrt (u.x * u.x + u.y * u.y + u.z * u.z)) := by
    intro a
    rw [one_div, one_div, mul_inv]
    field_simp
  ext <;> exact this _

theorem V3.normalize_norm (u : V3) : u.normalize.smul u.norm = u := by
  by_cases h : u = V3.zero
  · subst h; simp [V3.normalize, V3.zero, V3.smul]
  · exact V3.smul_norm_normalize h

/-- **C71 (partial).** The normal of a face of degree three or four is the unit vector of its vector area. Full statement: for every degree; this is false,
see `C71_pentagon`. -/
theorem C71_polygon_normal_partial (m : Mesh) (pos : ℕ → V3) (hv : m.Valid) (f : ℕ) (hf : m.fLive f) (hi : f < m.nFFill)
    (hd : m.fDegree f = .ok 3 ∨ m.fDegree f = .ok 4) :
    ∃ l N, m.navFaceHalfedges f = .ok l ∧ m.faceNormalP pos f = .ok N ∧ m.shoelace pos l = N.smul (m.shoelace pos l).norm ∧
      (m.shoelace pos l ≠ ⟨0, 0, 0⟩ → N.norm = 1) := by
  obtain ⟨l, e, nd, mem, l0, ln, deg, -⟩ := C49_face_halfedges m hv f hf
  refine ⟨l, (m.normalLoop pos l ⟨0, 0, 0⟩).normalize, e, by simp only [faceNormalP, bind, Except.bind, e], ?_⟩
  have key : ∃ k : ℝ, 0 < k ∧ m.normalLoop pos l ⟨0, 0, 0⟩ = (m.shoelace pos l).smul k := by
    rw [deg] at hd
    rcases hd with hd | hd <;> injection hd with hd
    · have l1 := ln 0 _ l0
      rw [hd] at l1
      have l2 := ln 1 _ l1
      rw [hd] at l2
      have l3 := ln 2 _ l2
      rw [hd] at l3
      match l, hd, l0, l1, l2, l3 with
      | [a, b, c], _, l0, l1, l2, l3 =>
        simp at l0 l1 l2 l3
        subst l0; subst l1; subst l2
        refine ⟨1, one_pos, ?_⟩
        unfold normalLoop shoelace
        simp only [List.foldl_cons, List.foldl_nil]
        rw [if_pos l3.symm, ← l3]
        generalize m.fHalfedge f = a
        generalize pos (m.heVertex a) = pa
        generalize pos (m.heVertex (m.heNext a)) = pb
        generalize pos (m.heVertex (m.heNext (m.heNext a))) = pc
        simp only [V3.smul, V3.add, V3.cross, V3.sub]
        ext <;> simp only <;> ring
    · have l1 := ln 0 _ l0
      rw [hd] at l1
      have l2 := ln 1 _ l1
      rw [hd] at l2
      have l3 := ln 2 _ l2
      rw [hd] at l3
      have l4 := ln 3 _ l3
      rw [hd] at l4
      match l, hd, l0, l1, l2, l3, l4 with
      | [a, b, c, d], _, l0, l1, l2, l3, l4 =>
        simp at l0 l1 l2 l3 l4
        subst l0; subst l1; subst l2; subst l3
        refine ⟨2, two_pos, ?_⟩
        rw [normalLoop_poly]
        · unfold shoelace area2
          simp only [List.foldl_cons, List.foldl_nil]
          rw [← l4]
          generalize m.fHalfedge f = a
          generalize pos (m.heVertex a) = pa
          generalize pos (m.heVertex (m.heNext a)) = pb
          generalize pos (m.heVertex (m.heNext (m.heNext a))) = pc
          generalize pos (m.heVertex (m.heNext (m.heNext (m.heNext a)))) = pd
          simp only [V3.smul, V3.add, V3.cross, V3.sub]
          ext <;> simp only <;> ring
        · intro h hh
          simp only [List.nodup_cons, List.mem_cons, List.not_mem_nil, or_false, not_or] at nd hh
          rcases hh with rfl | rfl | rfl | rfl
          · exact fun q => nd.1.2.2 q.symm
          · rw [← l4]; exact nd.1.1
          · rw [← l4]; exact nd.2.1.1
          · rw [← l4]; exact nd.2.2.1
  obtain ⟨k, hk, ek⟩ := key
  rw [ek, V3.normalize_smul_pos hk]
  refine ⟨(V3.normalize_norm _).symm, fun h => (C42_vector3_normalize _ h).1⟩

/-- A planar pentagon with a notch. -/
noncomputable def notchPos : ℕ → V3
  | 0 => ⟨4, 0, 0⟩
  | 1 => ⟨2, 1, 0⟩
  | 2 => ⟨4, 4, 0⟩
  | 3 => ⟨1, 1, 0⟩
  | _ => ⟨0, 1, 0⟩

/-- **C71 is false for pentagons.** The notched planar pentagon is counterclockwise seen from above, its vector area points upwards, but the
normal points downwards. -/
theorem C71_pentagon : pentagon.Valid ∧ pentagon.navFaceHalfedges 0 = .ok [0, 2, 4, 6, 8] ∧
    pentagon.shoelace notchPos [0, 2, 4, 6, 8] = ⟨0, 0, 5⟩ ∧ pentagon.faceNormalP notchPos 0 = .ok ⟨0, 0, -1⟩ := by
  have e : pentagon.navFaceHalfedges 0 = .ok [0, 2, 4, 6, 8] := rfl
  refine ⟨pentagon_valid, e, ?_, ?_⟩
  · show (((((V3.add ⟨0, 0, 0⟩ ((notchPos 0).cross (notchPos 1))).add ((notchPos 1).cross (notchPos 2))).add ((notchPos 2).cross (notchPos 3))).add
      ((notchPos 3).cross (notchPos 4))).add ((notchPos 4).cross (notchPos 0))) = _
    simp only [notchPos, V3.add, V3.cross]
    ext <;> norm_num
  · simp only [faceNormalP, bind, Except.bind, e]
    rw [normalLoop_poly _ (by decide +kernel)]
    have : List.foldl (fun s h => V3.add s (pentagon.area2 notchPos h)) ⟨0, 0, 0⟩ [0, 2, 4, 6, 8] = ⟨0, 0, -5⟩ := by
      have ar : ∀ a b c : ℕ, ∀ h, pentagon.heVertex h = a → pentagon.heVertex (pentagon.heNext h) = b → pentagon.heVertex (pentagon.heNext (pentagon.heNext h)) = c →
          pentagon.area2 notchPos h = ((notchPos b).sub (notchPos a)).cross ((notchPos c).sub (notchPos a)) := by
        rintro _ _ _ h rfl rfl rfl; rfl
      simp only [List.foldl_cons, List.foldl_nil]
      rw [ar 0 1 2 0 rfl rfl rfl, ar 1 2 3 2 rfl rfl rfl, ar 2 3 4 4 rfl rfl rfl, ar 3 4 0 6 rfl rfl rfl, ar 4 0 1 8 rfl rfl rfl]
      simp only [notchPos, V3.add, V3.cross, V3.sub]
      ext <;> norm_num
    rw [this]
    congr 1
    have s : Real.sqrt (0 * 0 + 0 * 0 + (-5) * (-5)) = 5 := by
      rw [show (0 * 0 + 0 * 0 + (-5) * (-5) : ℝ) = 5 ^ 2 by norm_num, Real.sqrt_sq (by norm_num)]
    unfold V3.normalize V3.smul
    simp only [s]
    ext <;> norm_num

/-- The hypotheses of C71: a square. -/
example : quad.Valid ∧ quad.fLive 0 ∧ 0 < quad.nFFill ∧ quad.fDegree 0 = .ok 4 := ⟨quad_valid, by decide +kernel, by decide +kernel, rfl⟩

end Mesh
end GC
