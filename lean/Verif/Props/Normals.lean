import Verif.Props.Embedded

/-! # C70: normals, dihedral angles, curvatures and tangent bases from positions -/

namespace GC
open Classical Finset

namespace V3

theorem zero_add' (u : V3) : V3.add ⟨0, 0, 0⟩ u = u := by
  unfold V3.add; ext <;> simp

theorem normalize_neg' (u : V3) : u.neg.normalize = u.normalize.neg := by
  unfold V3.normalize V3.neg V3.smul
  simp only
  rw [show -u.x * -u.x + -u.y * -u.y + -u.z * -u.z = u.x * u.x + u.y * u.y + u.z * u.z by ring]
  ext <;> simp

/-- The angle between two unit normals around a unit axis orthogonal to both. -/
theorem dihedral_spec {u a b : V3} (hu : u.dot u = 1) (ha : a.dot a = 1) (hb : b.dot b = 1) (h1 : u.dot a = 0) (h2 : u.dot b = 0) :
    Real.cos (Complex.arg ⟨a.dot b, u.dot (a.cross b)⟩) = a.dot b ∧ Real.sin (Complex.arg ⟨a.dot b, u.dot (a.cross b)⟩) = u.dot (a.cross b) ∧
      rodrigues u a (Complex.arg ⟨a.dot b, u.dot (a.cross b)⟩) = b := by
  -- the cross product of the normals lies along the axis
  have par : a.cross b = u.smul (u.dot (a.cross b)) := by
    simp only [V3.dot] at hu h1 h2
    simp only [V3.dot, V3.cross, V3.smul]
    ext <;> simp only
    · linear_combination (-(a.y * b.z - a.z * b.y)) * hu + (-(u.z * b.y) + u.y * b.z) * h1 + (u.z * a.y - u.y * a.z) * h2
    · linear_combination (-(a.z * b.x - a.x * b.z)) * hu + (-(u.x * b.z) + u.z * b.x) * h1 + (u.x * a.z - u.z * a.x) * h2
    · linear_combination (-(a.x * b.y - a.y * b.x)) * hu + (-(u.y * b.x) + u.x * b.y) * h1 + (u.y * a.x - u.x * a.y) * h2
  set s := u.dot (a.cross b) with hs
  set c := a.dot b with hc
  have one : c * c + s * s = 1 := by
    have lag : (a.cross b).dot (a.cross b) = a.dot a * b.dot b - a.dot b * a.dot b := by simp only [V3.dot, V3.cross]; ring
    have e : (a.cross b).dot (a.cross b) = s * s := by
      rw [par]
      have : (u.smul s).dot (u.smul s) = s * s * u.dot u := by simp only [V3.dot, V3.smul]; ring
      rw [this, hu, mul_one]
    rw [e, ha, hb, ← hc] at lag
    linarith
  set z : ℂ := ⟨c, s⟩ with hz
  have nz : ‖z‖ = 1 := by
    rw [Complex.norm_def, Complex.normSq_apply]
    show Real.sqrt (c * c + s * s) = 1
    rw [one, Real.sqrt_one]
  have z0 : z ≠ 0 := by
    intro q; rw [q, norm_zero] at nz; exact zero_ne_one nz
  have hcos : Real.cos z.arg = c := by rw [Complex.cos_arg z0, nz, div_one]
  have hsin : Real.sin z.arg = s := by rw [Complex.sin_arg, nz, div_one]
  refine ⟨hcos, hsin, ?_⟩
  unfold rodrigues
  rw [hcos, hsin, h1]
  have tr : (u.smul s).cross a = (b.smul (a.dot a)).sub (a.smul c) := by
    rw [← par, hc]; simp only [V3.cross, V3.dot, V3.smul, V3.sub]; ext <;> simp only <;> ring
  have e : (u.cross a).smul s = (u.smul s).cross a := by simp only [V3.cross, V3.smul]; ext <;> simp only <;> ring
  rw [e, tr, ha]
  simp only [V3.add, V3.sub, V3.smul]
  ext <;> simp only <;> ring

/-- A vector orthogonal to the unit normal, in an orthonormal basis of the plane. -/
theorem expand {n x w : V3} (hn : n.dot n = 1) (hx : x.dot x = 1) (h1 : n.dot x = 0) (h2 : n.dot w = 0) :
    w = (x.smul (w.dot x)).add ((n.cross x).smul (w.dot (n.cross x))) := by
  -- w = (w·x) x + (w·(n×x)) (n×x): the triple n, x, n×x is orthonormal
  have key : (w.cross x) = n.smul (-(w.dot (n.cross x))) := by
    simp only [V3.dot] at hn h1 h2
    simp only [V3.dot, V3.cross, V3.smul]
    ext <;> simp only
    · linear_combination (-(w.y * x.z - w.z * x.y)) * hn + (-(n.z * w.y) + n.y * w.z) * (-h1) + (n.z * x.y - n.y * x.z) * (-h2)
    · linear_combination (-(w.z * x.x - w.x * x.z)) * hn + (-(n.x * w.z) + n.z * w.x) * (-h1) + (n.x * x.z - n.z * x.x) * (-h2)
    · linear_combination (-(w.x * x.y - w.y * x.x)) * hn + (-(n.y * w.x) + n.x * w.y) * (-h1) + (n.y * x.x - n.x * x.y) * (-h2)
  have e : x.cross (w.cross x) = (w.smul (x.dot x)).sub (x.smul (w.dot x)) := by
    simp only [V3.cross, V3.dot, V3.smul, V3.sub]; ext <;> simp only <;> ring
  rw [key, hx] at e
  have e2 : x.cross (n.smul (-(w.dot (n.cross x)))) = (n.cross x).smul (w.dot (n.cross x)) := by
    generalize w.dot (n.cross x) = k
    simp only [V3.cross, V3.smul]; ext <;> simp only <;> ring
  rw [e2] at e
  rw [e]
  simp only [V3.add, V3.sub, V3.smul]
  ext <;> simp only <;> ring

end V3

namespace Mesh
variable {m : Mesh} {pos : ℕ → V3} {vs hs is es fs : List ℕ}

/-- The vector along a halfedge, from its tail to its tip. -/
def along (m : Mesh) (pos : ℕ → V3) (h : ℕ) : V3 := (pos (m.heVertex (m.heNext h))).sub (pos (m.heVertex h))

/-- Twice the vector area of the triangle at a halfedge. -/
def area2 (m : Mesh) (pos : ℕ → V3) (h : ℕ) : V3 :=
  ((pos (m.heVertex (m.heNext h))).sub (pos (m.heVertex h))).cross ((pos (m.heVertex (m.heNext (m.heNext h)))).sub (pos (m.heVertex h)))

theorem area2_next (ht : m.TriFaces) {h : ℕ} (hh : h ∈ m.ints) : m.area2 pos (m.heNext h) = m.area2 pos h := by
  obtain ⟨a, b⟩ := mem_ints.1 hh
  unfold area2
  rw [ht h a b]
  simp only [V3.cross, V3.sub]
  ext <;> simp only <;> ring

theorem area2_face (hv : m.Valid) (ht : m.TriFaces) {h : ℕ} (hh : h ∈ m.ints) : m.area2 pos (m.fHalfedge (m.heFace h)) = m.area2 pos h := by
  obtain ⟨a, b⟩ := mem_ints.1 hh
  obtain ⟨q1, q2⟩ := mem_faces.1 (int_face hv hh)
  obtain ⟨l0, e0⟩ := hv.f_he _ q1
  have x0 : ¬ m.ext (m.fHalfedge (m.heFace h)) := face_not_ext hv (by rw [e0]; exact q2)
  have i0 := mem_ints.2 ⟨l0, x0⟩
  have := hv.tri_mem l0 a (ht _ l0 x0) e0.symm
  generalize m.fHalfedge (m.heFace h) = g at *
  rcases this with q | q | q
  · rw [q]
  · rw [q, area2_next ht i0]
  · rw [q, area2_next ht (int_next hv i0), area2_next ht i0]

theorem along_cross (hv : m.Valid) (ht : m.TriFaces) {h : ℕ} : (m.along pos h).cross (m.along pos (m.heNext h)) = m.area2 pos h := by
  unfold along area2
  simp only [V3.cross, V3.sub]
  ext <;> simp only <;> ring

theorem along_twin (hv : m.Valid) {h : ℕ} (hl : m.heLive h) : m.along pos (twin h) = (m.along pos h).neg := by
  unfold along
  rw [hv.vertex_next hl, hv.vertex_next (hv.twin_live h hl), twin_twin]
  simp only [V3.neg, V3.sub]
  ext <;> simp only <;> ring

theorem along_norm (hv : m.Valid) {h : ℕ} (hl : m.heLive h) {len : ℕ → ℝ} (F : m.FaceLengths pos len) : (m.along pos h).norm = len (heEdge h) := by
  rw [F.edge h hl, V3.sub_comm_norm]; rfl

theorem faceNormalP_ok (hv : m.Valid) (ht : m.TriFaces) {f : ℕ} (hf : f ∈ m.faces) :
    m.faceNormalP pos f = .ok (m.area2 pos (m.fHalfedge f)).normalize := by
  obtain ⟨q1, q2⟩ := mem_faces.1 hf
  obtain ⟨l0, e0⟩ := hv.f_he f q1
  have x0 : ¬ m.ext (m.fHalfedge f) := face_not_ext hv (by rw [e0]; exact q2)
  simp only [faceNormalP, bind, Except.bind, nav_tri hv ht hf, normalLoop]
  rw [if_pos (ht _ l0 x0), V3.zero_add']
  rfl

/-- The face normals. -/
theorem faceNormalsE_ok (hv : m.Valid) (ht : m.TriFaces) (hn : m.NonDegenerate pos) (R : m.Ranges vs hs is es fs) {len : ℕ → ℝ} (F : m.FaceLengths pos len) :
    ∃ N, m.faceNormalsE pos = .ok N ∧ (∀ f ∈ m.faces, m.faceNormalP pos f = .ok (N f)) ∧
      ∀ h ∈ m.ints, (N (m.heFace h)).dot (N (m.heFace h)) = 1 ∧ (N (m.heFace h)).dot (m.along pos h) = 0 ∧
        m.area2 pos h = (N (m.heFace h)).smul (2 * m.faceArea len (m.heFace h)) := by
  refine ⟨assign (fun _ => ⟨0, 0, 0⟩) (fun f => (m.area2 pos (m.fHalfedge f)).normalize) fs, ?_, fun f hf => ?_, fun h hh => ?_⟩
  · unfold faceNormalsE
    rw [R.f]
    show assignM _ _ fs = _
    rw [assignM_ok (fun f hf => faceNormalP_ok hv ht ((R.mf f).1 hf))]
  · rw [assign_apply, if_pos ((R.mf f).2 hf), faceNormalP_ok hv ht hf]
  · obtain ⟨a, b⟩ := mem_ints.1 hh
    rw [assign_apply, if_pos ((R.mf _).2 (int_face hv hh)), area2_face hv ht hh]
    have nz : m.area2 pos h ≠ V3.zero := hn h a b
    have ar := F.area h hh
    have e : 2 * m.faceArea len (m.heFace h) = (m.area2 pos h).norm := by rw [ar]; unfold area2; ring
    refine ⟨V3.normalize_dot nz, ?_, ?_⟩
    · have : (m.area2 pos h).dot (m.along pos h) = 0 := by
        unfold area2 along; simp only [V3.dot, V3.cross, V3.sub]; ring
      have e3 : (m.area2 pos h).normalize.dot (m.along pos h) = (m.area2 pos h).dot (m.along pos h) * (1 / Real.sqrt ((m.area2 pos h).x * (m.area2 pos h).x +
          (m.area2 pos h).y * (m.area2 pos h).y + (m.area2 pos h).z * (m.area2 pos h).z)) := by
        unfold V3.normalize V3.dot V3.smul; simp only; ring
      rw [e3, this, zero_mul]
    · rw [e, V3.smul_norm_normalize nz]

theorem along_ne (hv : m.Valid) {len : ℕ → ℝ} (F : m.FaceLengths pos len) {h : ℕ} (hl : m.heLive h) : m.along pos h ≠ V3.zero := by
  intro q
  have := along_norm hv hl F
  rw [q] at this
  have p := len_pos hv F.metric hl
  rw [← this] at p
  simp [V3.norm, V3.zero] at p

/-- **C70, normals.** The normal of a triangle, cached or immediate, is a unit vector orthogonal to the edges, and the cross product of two
successive edge vectors is twice the area times the normal; so the normal is on the side from which the face is counterclockwise. -/
theorem C70_normals (m : Mesh) (pos : ℕ → V3) (hv : m.Valid) (ht : m.TriFaces) (hn : m.NonDegenerate pos) :
    ∃ N A, m.faceNormalsE pos = .ok N ∧ m.faceAreasE pos = .ok A ∧ (∀ f, m.fLive f → f < m.nFFill → m.faceNormalP pos f = .ok (N f)) ∧
      ∀ h, m.heLive h → ¬ m.ext h → (N (m.heFace h)).norm = 1 ∧ (N (m.heFace h)).dot (m.along pos h) = 0 ∧ 0 < A (m.heFace h) ∧
        (m.along pos h).cross (m.along pos (m.heNext h)) = (N (m.heFace h)).smul (2 * A (m.heFace h)) := by
  obtain ⟨vs, hs, is, es, fs, R⟩ := hv.ranges
  obtain ⟨len, l1, l2, F⟩ := edgeLengthsE_ok hv ht hn R
  obtain ⟨A, a1, a2⟩ := faceAreas_ok (len := len) R
  obtain ⟨len', l1', -, -, c1, -⟩ := C69_positions m pos hv ht hn
  rw [l1] at l1'; injection l1' with l1'; subst l1'
  obtain ⟨N, n1, n2, n3⟩ := faceNormalsE_ok hv ht hn R F
  refine ⟨N, A, n1, by rw [c1, a1], fun f q1 q2 => n2 f (mem_faces.2 ⟨q1, q2⟩), fun h a b => ?_⟩
  obtain ⟨x1, x2, x3⟩ := n3 h (mem_ints.2 ⟨a, b⟩)
  have hf := int_face hv (mem_ints.2 ⟨a, b⟩)
  refine ⟨?_, x2, by rw [a2, if_pos hf]; exact faceArea_pos hv F.metric hf, ?_⟩
  · have := V3.norm_sq (N (m.heFace h))
    rw [x1] at this
    have := V3.norm_nonneg (N (m.heFace h))
    nlinarith
  · rw [along_cross hv ht, x3, a2, if_pos hf]

/-- **C70, vertex normals.** The vertex normal is the sum of the face normals weighted with the corner angles, scaled to unit length;
the length of the sum, `r`, is zero only if the sum vanishes. -/
theorem C70_vertex_normals (m : Mesh) (pos : ℕ → V3) (hv : m.Valid) (ht : m.TriFaces) (hn : m.NonDegenerate pos) :
    ∃ N ca NV, m.faceNormalsE pos = .ok N ∧ m.cornerAnglesE pos = .ok ca ∧ m.vertexNormalsE pos = .ok NV ∧
      ∀ v, m.vLive v → ∃ r : ℝ, 0 ≤ r ∧ (r ≠ 0 → (NV v).norm = 1) ∧
        ∀ d : V3, r * d.dot (NV v) = ∑ h ∈ range m.nHeFill with m.heLive h ∧ ¬ m.ext h ∧ m.heVertex h = v, ca h * d.dot (N (m.heFace h)) := by
  obtain ⟨vs, hs, is, es, fs, R⟩ := hv.ranges
  obtain ⟨len, l1, l2, F⟩ := edgeLengthsE_ok hv ht hn R
  obtain ⟨ca, a1, a2⟩ := cornerAngles_ok (len := len) R
  obtain ⟨len', l1', -, -, -, c1, -⟩ := C69_positions m pos hv ht hn
  rw [l1] at l1'; injection l1' with l1'; subst l1'
  obtain ⟨N, n1, n2, n3⟩ := faceNormalsE_ok hv ht hn R F
  have key : ∀ v ∈ vs, ∃ l, navList m.vNext (fun i => decide (m.heIsInterior i)) (m.vHalfedge v) (m.nHeFill + 2) = .ok l ∧ l.Nodup ∧
      ∀ i, i ∈ l ↔ i ∈ ({h ∈ range m.nHeFill | m.heLive h ∧ ¬ m.ext h ∧ m.heVertex h = v} : Finset ℕ) := by
    intro v hvv
    have hl := mem_verts.1 ((R.mv v).1 hvv)
    obtain ⟨l0, e0⟩ := hv.v_he v hl
    obtain ⟨k, hk, hhit, hmin, hok⟩ := orbitList_ok (hv.back_vNext l0) (fun z hz => (hv.live_of_orb_vNext l0 hz).1)
    obtain ⟨l, e, nd, hm', -⟩ := hv.outgoingHalfedges_ok hl
    have el : l = (List.range (k+1)).map (fun j => m.vNext^[j] (m.vHalfedge v)) := by
      unfold outgoingHalfedges at e; rw [hok] at e; injection e with e; exact e.symm
    refine ⟨_, by rw [navList_eq hhit hmin (by omega), ← el], nd.filter _, fun i => ?_⟩
    rw [List.mem_filter, hm', mem_filter, decide_eq_true_eq, heInterior_iff, mem_range]
    constructor
    · rintro ⟨⟨a, b⟩, c⟩; exact ⟨a.1, a, c, b⟩
    · rintro ⟨-, a, c, b⟩; exact ⟨⟨a, b⟩, c⟩
  choose! L k1 k2 k3 using key
  set S : ℕ → V3 := fun v => (L v).foldl (fun s c => V3.add s (V3.lmul (ca c) (N (m.heFace c)))) ⟨0, 0, 0⟩ with hS
  have sum : ∀ (d : V3) (l : List ℕ) (s : V3), d.dot (l.foldl (fun s c => V3.add s (V3.lmul (ca c) (N (m.heFace c)))) s) =
      d.dot s + (l.map (fun c => ca c * d.dot (N (m.heFace c)))).sum := by
    intro d l
    induction l with
    | nil => intro s; simp
    | cons c l ih =>
      intro s
      rw [List.foldl_cons, ih, List.map_cons, List.sum_cons]
      simp only [V3.dot, V3.add, V3.lmul]
      ring
  refine ⟨N, ca, assign (fun _ => ⟨0, 0, 0⟩) (fun v => (S v).normalize) vs, n1, by rw [c1, a1], ?_, fun v hl => ?_⟩
  · simp only [vertexNormalsE, bind, Except.bind, n1, c1, a1, R.v]
    refine assignM_ok (fun v hvv => ?_) _
    rw [k1 v hvv]
  · have hvv := (R.mv v).2 (mem_verts.2 hl)
    rw [assign_apply, if_pos hvv]
    have tot : ∀ d : V3, d.dot (S v) = ∑ h ∈ range m.nHeFill with m.heLive h ∧ ¬ m.ext h ∧ m.heVertex h = v, ca h * d.dot (N (m.heFace h)) := by
      intro d
      rw [hS]
      simp only
      rw [sum, sum_of_nodup (k2 v hvv) (k3 v hvv)]
      simp [V3.dot]
    refine ⟨(S v).norm, V3.norm_nonneg _, fun h => ?_, fun d => ?_⟩
    · refine (C42_vector3_normalize _ (fun q => h ?_)).1
      rw [q]; simp [V3.norm, V3.zero]
    · rw [← tot]
      by_cases z : S v = V3.zero
      · rw [z]; simp [V3.norm, V3.zero, V3.dot]
      · have := V3.smul_norm_normalize z
        conv_rhs => rw [← this]
        simp only [V3.dot, V3.smul]
        ring

/-- The dihedral angles, seen from any halfedge. -/
theorem edgeDihedralAnglesE_ok (hv : m.Valid) (R : m.Ranges vs hs is es fs) {N : ℕ → V3} (n1 : m.faceNormalsE pos = .ok N)
    (n2 : ∀ f ∈ m.faces, m.faceNormalP pos f = .ok (N f)) :
    ∃ al, m.edgeDihedralAnglesE pos = .ok al ∧ (∀ e, m.heLive (2 * e) → m.edgeDihedralAngleP pos e = .ok (al e)) ∧
      (∀ h, m.heLive h → m.ext h ∨ m.ext (twin h) → al (heEdge h) = 0) ∧
      ∀ h, m.heLive h → ¬ m.ext h → ¬ m.ext (twin h) → al (heEdge h) = Complex.arg ⟨(N (m.heFace h)).dot (N (m.heFace (twin h))),
        (m.along pos h).normalize.dot ((N (m.heFace h)).cross (N (m.heFace (twin h))))⟩ := by
  set al := es.foldl (fun d e => if m.eIsBoundary e then d else Function.update d e (m.dihedral pos N e)) (fun _ => 0) with hal
  have ale : ∀ e, m.heLive (2 * e) → al e = if m.eIsBoundary e then 0 else m.dihedral pos N e := by
    intro e he
    rw [hal, foldl_local (S := fun u x => u = x ∧ ¬ m.eIsBoundary u) (val := m.dihedral pos N)]
    · have me := (R.me e).2 ((mem_edges hv).2 he)
      by_cases q : m.eIsBoundary e
      · rw [if_pos q, if_neg]
        rintro ⟨f, -, rfl, z⟩
        exact z q
      · rw [if_neg q, if_pos ⟨e, me, rfl, q⟩]
    · rintro d u - x ⟨rfl, q⟩
      rw [if_neg q, Function.update_self]
    · intro d u _ x q
      split
      · rfl
      · rename_i z
        rw [Function.update_of_ne (fun e => q ⟨e.symm, z⟩)]
  have bd : ∀ e, m.heLive (2 * e) → (m.eIsBoundary e ↔ m.ext (2 * e) ∨ m.ext (twin (2 * e))) := by
    intro e he
    have ei : ¬ m.ext (2 * e) := hv.edge_int e he
    rw [← not_iff_not, not_bdy_iff]
    unfold eHalfedge
    tauto
  have par : ∀ h, m.heLive h → (h = 2 * heEdge h ∨ h = twin (2 * heEdge h)) ∧ m.heLive (2 * heEdge h) := by
    intro h hl
    refine ⟨?_, edge_live hv hl⟩
    rw [twin_two_mul]; unfold heEdge; omega
  refine ⟨al, by simp only [edgeDihedralAnglesE, bind, Except.bind, n1, R.e]; rfl, fun e he => ?_, fun h hl hx => ?_, fun h hl h1 h2 => ?_⟩
  · rw [ale e he]
    unfold edgeDihedralAngleP
    by_cases q : m.eIsBoundary e
    · rw [if_pos q, if_pos q]
    · rw [if_neg q, if_neg q]
      have q' : ¬ (m.ext (2 * e) ∨ m.ext (twin (2 * e))) := fun z => q ((bd e he).2 z)
      rw [not_or] at q'
      have f1 := n2 _ (int_face hv (mem_ints.2 ⟨he, q'.1⟩))
      have f2 := n2 _ (int_face hv (mem_ints.2 ⟨hv.twin_live _ he, q'.2⟩))
      simp only [eHalfedge, bind, Except.bind, f1, f2]
      rfl
  · obtain ⟨p1, p2⟩ := par h hl
    rw [ale _ p2, if_pos]
    rw [bd _ p2]
    rcases p1 with p | p <;> rw [p] at hx
    · exact hx
    · rw [twin_twin] at hx; exact hx.symm
  · obtain ⟨p1, p2⟩ := par h hl
    have nb : ¬ m.eIsBoundary (heEdge h) := by
      rw [bd _ p2, not_or]
      rcases p1 with p | p <;> rw [p] at h1 h2
      · exact ⟨h1, h2⟩
      · rw [twin_twin] at h2; exact ⟨h2, h1⟩
    rw [ale _ p2, if_neg nb]
    unfold dihedral eHalfedge
    simp only
    generalize heEdge h = e at *
    rcases p1 with rfl | rfl
    · rfl
    · rw [along_twin hv p2, twin_twin, V3.normalize_neg']
      congr 1
      apply Complex.ext
      · simp only [V3.dot]; ring
      · show (m.along pos (2 * e)).normalize.dot _ = _
        simp only [V3.dot, V3.cross, V3.neg]; ring

/-- **C70, dihedral angles.** At an edge between two triangles the dihedral angle, cached or immediate, is the angle in (−π, π] by which the first
normal rotates about the edge to become the second, seen from either halfedge. Its sine is −(length / twice the area) times the height of
the far vertex of the second triangle over the plane of the first; so it is positive exactly at convex edges. At the boundary it is zero. -/
theorem C70_dihedral (m : Mesh) (pos : ℕ → V3) (hv : m.Valid) (ht : m.TriFaces) (hn : m.NonDegenerate pos) :
    ∃ N A len al, m.faceNormalsE pos = .ok N ∧ m.faceAreasE pos = .ok A ∧ m.edgeLengthsE pos = .ok len ∧ m.edgeDihedralAnglesE pos = .ok al ∧
      (∀ e, m.heLive (2 * e) → m.edgeDihedralAngleP pos e = .ok (al e)) ∧
      (∀ h, m.heLive h → m.ext h ∨ m.ext (twin h) → al (h / 2) = 0) ∧
      ∀ h, m.heLive h → ¬ m.ext h → ¬ m.ext (twin h) →
        (N (m.heFace h)).rotateAround (m.along pos h) (al (h / 2)) = N (m.heFace (twin h)) ∧ -Real.pi < al (h / 2) ∧ al (h / 2) ≤ Real.pi ∧
        Real.cos (al (h / 2)) = (N (m.heFace h)).dot (N (m.heFace (twin h))) ∧
        2 * A (m.heFace (twin h)) * Real.sin (al (h / 2)) =
          -(len (h / 2) * (N (m.heFace h)).dot ((pos (m.heVertex (m.heNext (m.heNext (twin h))))).sub (pos (m.heVertex h)))) := by
  obtain ⟨vs, hs, is, es, fs, R⟩ := hv.ranges
  obtain ⟨len, l1, l2, F⟩ := edgeLengthsE_ok hv ht hn R
  obtain ⟨A, a1, a2⟩ := faceAreas_ok (len := len) R
  obtain ⟨len', l1', -, -, c1, -⟩ := C69_positions m pos hv ht hn
  rw [l1] at l1'; injection l1' with l1'; subst l1'
  obtain ⟨N, n1, n2, n3⟩ := faceNormalsE_ok hv ht hn R F
  obtain ⟨al, b1, b2, b3, b4⟩ := edgeDihedralAnglesE_ok hv R n1 n2
  refine ⟨N, A, len, al, n1, by rw [c1, a1], l1, b1, b2, b3, fun h hl h1 h2 => ?_⟩
  have lt := hv.twin_live h hl
  obtain ⟨x1, x2, -⟩ := n3 h (mem_ints.2 ⟨hl, h1⟩)
  obtain ⟨y1, y2, y3⟩ := n3 _ (mem_ints.2 ⟨lt, h2⟩)
  rw [along_twin hv hl] at y2
  have ne := along_ne hv F hl
  have nn := along_norm hv hl F
  have un := V3.normalize_dot ne
  have us := V3.smul_norm_normalize ne
  have lp := len_pos hv F.metric hl
  rw [nn] at us
  have e4 := b4 h hl h1 h2
  have ex : heEdge h = h / 2 := rfl
  rw [← ex, C42_vector3_rotateAround _ _ ne, e4]
  have y0 : m.area2 pos (twin h) = ((m.along pos h).neg).cross ((pos (m.heVertex (m.heNext (m.heNext (twin h))))).sub (pos (m.heVertex h))) := by
    have vt : m.heVertex (m.heNext (twin h)) = m.heVertex h := by rw [hv.vertex_next lt, twin_twin]
    have vn : m.heVertex (m.heNext h) = m.heVertex (twin h) := hv.vertex_next hl
    unfold area2 along
    rw [vt, vn]
    simp only [V3.cross, V3.sub, V3.neg]
    ext <;> simp only <;> ring
  rw [y0] at y3
  rw [a2, if_pos (int_face hv (mem_ints.2 ⟨lt, h2⟩))]
  generalize (m.along pos h).normalize = u at *
  generalize N (m.heFace h) = n at *
  generalize N (m.heFace (twin h)) = n' at *
  generalize len (heEdge h) = l at *
  generalize (pos (m.heVertex (m.heNext (m.heNext (twin h))))).sub (pos (m.heVertex h)) = q at *
  have z1 : u.dot n = 0 := by
    rw [← us] at x2
    have : n.dot (u.smul l) = l * u.dot n := by simp only [V3.dot, V3.smul]; ring
    rw [this] at x2
    exact (mul_eq_zero.1 x2).resolve_left lp.ne'
  have z2 : u.dot n' = 0 := by
    rw [← us] at y2
    have : n'.dot (u.smul l).neg = -l * u.dot n' := by simp only [V3.dot, V3.smul, V3.neg]; ring
    rw [this] at y2
    exact (mul_eq_zero.1 y2).resolve_left (neg_ne_zero.2 lp.ne')
  obtain ⟨d1, d2, d3⟩ := V3.dihedral_spec un x1 y1 z1 z2
  refine ⟨d3, Complex.neg_pi_lt_arg _, Complex.arg_le_pi _, d1, ?_⟩
  rw [d2]
  -- 2A u·(n×n') = (u×n)·(2A n')
  have w1 : 2 * m.faceArea len (m.heFace (twin h)) * u.dot (n.cross n') = (u.cross n).dot (n'.smul (2 * m.faceArea len (m.heFace (twin h)))) := by
    simp only [V3.dot, V3.cross, V3.smul]; ring
  rw [w1, ← y3, ← us]
  simp only [V3.dot, V3.cross, V3.smul, V3.neg] at un z1 ⊢
  linear_combination (-l * (q.x * n.x + q.y * n.y + q.z * n.z)) * un + (l * (u.x * q.x + u.y * q.y + u.z * q.z)) * z1

/-- **C70, mean curvature.** The mean curvatures of the vertices, cached or immediate, add up to half the sum of length times dihedral angle
over the edges. -/
theorem C70_mean_curvature (m : Mesh) (pos : ℕ → V3) (hv : m.Valid) (ht : m.TriFaces) (hn : m.NonDegenerate pos) :
    ∃ len al H, m.edgeLengthsE pos = .ok len ∧ m.edgeDihedralAnglesE pos = .ok al ∧ m.vertexMeanCurvaturesE pos = .ok H ∧
      (∀ v, m.vLive v → m.vertexMeanCurvatureP pos v = .ok (H v) ∧
        H v = ∑ h ∈ range m.nHeFill with m.heLive h ∧ m.heVertex h = v, al (h / 2) * len (h / 2) / 4) ∧
      ∑ v ∈ range m.nVFill with m.vLive v, H v = (∑ e ∈ range m.nEFill with m.heLive (2 * e), al e * len e) / 2 := by
  obtain ⟨vs, hs, is, es, fs, R⟩ := hv.ranges
  obtain ⟨len, l1, l2, F⟩ := edgeLengthsE_ok hv ht hn R
  obtain ⟨N, n1, n2, n3⟩ := faceNormalsE_ok hv ht hn R F
  obtain ⟨al, b1, b2, b3, b4⟩ := edgeDihedralAnglesE_ok hv R n1 n2
  have key : ∀ v ∈ vs, ∃ l, m.navOutgoing v = .ok l ∧ l.Nodup ∧ ∀ i, i ∈ l ↔ i ∈ ({h ∈ range m.nHeFill | m.heLive h ∧ m.heVertex h = v} : Finset ℕ) := by
    intro v hvv
    obtain ⟨l, a, b, c, -⟩ := C49_vertex_outgoing m hv v (mem_verts.1 ((R.mv v).1 hvv))
    refine ⟨l, a, b, fun i => ?_⟩
    rw [c, mem_filter, mem_range]
    exact ⟨fun q => ⟨q.1.1, q⟩, fun q => q.2⟩
  choose! L k1 k2 k3 using key
  set S : ℕ → ℝ := fun v => ∑ h ∈ range m.nHeFill with m.heLive h ∧ m.heVertex h = v, al (h / 2) * len (h / 2) / 4 with hS
  have quarter : ∀ v ∈ vs, ((L v).map (fun he => al (heEdge he) * len (heEdge he) / 2)).sum / 2 = S v := by
    intro v hvv
    rw [sum_of_nodup (k2 v hvv) (k3 v hvv), hS, sum_div]
    exact sum_congr rfl (fun h _ => by unfold heEdge; ring)
  have lenE : ∀ h, m.heLive h → m.edgeLengthP pos (heEdge h) = len (heEdge h) := by
    intro h hl
    rw [l2, if_pos ((mem_edges hv).2 (edge_live hv hl))]
  refine ⟨len, al, assign (fun _ => 0) S vs, l1, b1, ?_, fun v hl => ⟨?_, ?_⟩, ?_⟩
  · simp only [vertexMeanCurvaturesE, bind, Except.bind, l1, b1, R.v]
    refine assignM_ok (fun v hvv => ?_) _
    rw [k1 v hvv]
    simp only
    rw [foldl_add, zero_add, quarter v hvv]
  · have hvv := (R.mv v).2 (mem_verts.2 hl)
    rw [assign_apply, if_pos hvv, ← quarter v hvv]
    simp only [vertexMeanCurvatureP, bind, Except.bind, k1 v hvv]
    have loop : ∀ (l : List ℕ) (s : ℝ), (∀ h ∈ l, m.heLive h) → l.foldlM (m := Res) (fun s he => do
        let alpha ← m.edgeDihedralAngleP pos (heEdge he)
        .ok (s + alpha * m.edgeLengthP pos (heEdge he) / 2)) s = .ok (s + (l.map (fun he => al (heEdge he) * len (heEdge he) / 2)).sum) := by
      intro l
      induction l with
      | nil => intro s _; simp; rfl
      | cons h l ih =>
        intro s hl
        have hh := hl h List.mem_cons_self
        have := ih (s + al (heEdge h) * len (heEdge h) / 2) (fun x hx => hl x (List.mem_cons_of_mem _ hx))
        simp only [bind, Except.bind] at this
        simp only [List.foldlM_cons, bind, Except.bind, b2 _ (edge_live hv hh), lenE h hh, List.map_cons, List.sum_cons]
        rw [this, add_assoc]
    have := loop (L v) 0 (fun h hh => (mem_filter.1 ((k3 v hvv h).1 hh)).2.1)
    simp only [bind, Except.bind] at this
    rw [this, zero_add]
  · rw [assign_apply, if_pos ((R.mv v).2 (mem_verts.2 hl))]
  · have e1 : ∑ v ∈ range m.nVFill with m.vLive v, assign (fun _ => 0) S vs v = ∑ v ∈ m.verts, S v :=
      sum_congr rfl (fun v hvv => by rw [assign_apply, if_pos ((R.mv v).2 hvv)])
    have e2 : ∑ v ∈ m.verts, S v = ∑ h ∈ m.hes, al (h / 2) * len (h / 2) / 4 := by
      rw [hS, ← sum_fiberwise_of_maps_to (s := m.hes) (t := m.verts) (g := m.heVertex) (fun h hh => mem_verts.2 (hv.vertex_live h (mem_hes.1 hh)))]
      refine sum_congr rfl (fun v _ => sum_congr ?_ (fun _ _ => rfl))
      ext i
      rw [mem_filter, mem_filter, mem_hes, mem_range]
      exact ⟨fun q => q.2, fun q => ⟨q.1.1, q⟩⟩
    rw [e1, e2, ← sum_edges hv]
    have eE : ({e ∈ range m.nEFill | m.heLive (2 * e)} : Finset ℕ) = m.edges := rfl
    rw [eE, sum_div]
    refine sum_congr rfl (fun e _ => ?_)
    rw [show 2 * e / 2 = e by omega, show (2 * e + 1) / 2 = e by omega]
    ring

/-- **C70, principal curvatures.** For integrated mean and Gaussian curvatures `H`, `K` and dual areas, the two principal curvatures are ordered, have mean
`H`, and product `K` wherever `K ≤ H²` pointwise; elsewhere both are `H`. -/
theorem C70_principal (m : Mesh) (dual H K : ℕ → ℝ) (hv : m.Valid) :
    ∃ k1 k2, m.principalCurvatures 1 dual H K = .ok k1 ∧ m.principalCurvatures 2 dual H K = .ok k2 ∧
      ∀ v, m.vLive v → k1 v ≤ k2 v ∧ (k1 v + k2 v) / 2 = H v / dual v ∧
        k1 v * k2 v = min (K v / dual v) (H v / dual v * (H v / dual v)) := by
  obtain ⟨vs, hs, is, es, fs, R⟩ := hv.ranges
  refine ⟨_, _, by unfold principalCurvatures; rw [R.v]; rfl, by unfold principalCurvatures; rw [R.v]; rfl, fun v hl => ?_⟩
  have hvv := (R.mv v).2 (mem_verts.2 hl)
  simp only [assign_apply, if_pos hvv]
  rw [if_pos trivial, if_neg (by norm_num)]
  generalize H v / dual v = h
  generalize K v / dual v = k
  have s0 := Real.sqrt_nonneg (max 0 (h * h - k))
  have s1 := Real.mul_self_sqrt (le_max_left 0 (h * h - k))
  generalize Real.sqrt (max 0 (h * h - k)) = c at *
  rw [min_eq_left (by linarith), max_eq_right (by linarith)]
  refine ⟨by linarith, by ring, ?_⟩
  have : (h - c) * (h + c) = h * h - c * c := by ring
  rw [this, s1]
  rcases le_total 0 (h * h - k) with q | q
  · rw [max_eq_right q, min_eq_left (by linarith)]; ring
  · rw [max_eq_left q, min_eq_right (by linarith)]; ring

/-- **C70, face bases.** The tangent basis of a triangle is orthonormal and right-handed with the normal, and it expresses the edge vectors
by the planar layout `halfedgeVectorsInFace`; so tangent vectors given by the layout are placed correctly in space. -/
theorem C70_face_basis (m : Mesh) (pos : ℕ → V3) (nan : V2) (hv : m.Valid) (ht : m.TriFaces) (hn : m.NonDegenerate pos) :
    ∃ N B len vec, m.faceNormalsE pos = .ok N ∧ m.faceTangentBasisE pos nan = .ok B ∧ m.edgeLengthsE pos = .ok len ∧
      m.halfedgeVectorsInFace len nan = .ok vec ∧ ∀ h, m.heLive h → ¬ m.ext h →
        (B (m.heFace h)).1.dot (B (m.heFace h)).1 = 1 ∧ (B (m.heFace h)).2.dot (B (m.heFace h)).2 = 1 ∧ (B (m.heFace h)).1.dot (B (m.heFace h)).2 = 0 ∧
        (B (m.heFace h)).1.cross (B (m.heFace h)).2 = N (m.heFace h) ∧
        m.along pos h = ((B (m.heFace h)).1.smul (vec h).x).add ((B (m.heFace h)).2.smul (vec h).y) := by
  obtain ⟨vs, hs, is, es, fs, R⟩ := hv.ranges
  obtain ⟨len, l1, l2, F⟩ := edgeLengthsE_ok hv ht hn R
  obtain ⟨N, n1, n2, n3⟩ := faceNormalsE_ok hv ht hn R F
  obtain ⟨vec, v1, v2, v3, v4, -⟩ := halfedgeVectorsInFace_ok (nan := nan) hv ht F.metric R
  refine ⟨N, _, len, vec, n1, by simp only [faceTangentBasisE, bind, Except.bind, n1, l1, v1, R.f]; rfl, l1, v1, fun h hl hx => ?_⟩
  have hh := mem_ints.2 ⟨hl, hx⟩
  have hf := int_face hv hh
  obtain ⟨q1, q2⟩ := mem_faces.1 hf
  obtain ⟨l0, e0⟩ := hv.f_he _ q1
  have x0 : ¬ m.ext (m.fHalfedge (m.heFace h)) := face_not_ext hv (by rw [e0]; exact q2)
  have i0 := mem_ints.2 ⟨l0, x0⟩
  have i1 := int_next hv i0
  have cs := hv.tri_mem l0 hl (ht _ l0 x0) e0.symm
  have t := ht _ l0 x0
  obtain ⟨a1, a2, a3⟩ := n3 _ i0
  obtain ⟨-, b2, -⟩ := n3 _ i1
  have f4 := v4 _ hf
  have nb := v2.norm _ (mem_ints.1 i1).1 (mem_ints.1 i1).2
  have nc := v2.norm _ (mem_ints.1 (int_next hv i1)).1 (mem_ints.1 (int_next hv i1)).2
  have cl := v2.close _ l0 x0
  have cr := v3 _ i0
  have w1 := along_norm hv l0 F
  have w2 := along_norm hv (mem_ints.1 i1).1 F
  have w3 := along_norm hv (mem_ints.1 (int_next hv i1)).1 F
  have lp := len_pos hv F.metric l0
  have ne := along_ne hv F l0
  have cx := along_cross (pos := pos) hv ht (h := m.fHalfedge (m.heFace h))
  have closed : (m.along pos (m.fHalfedge (m.heFace h))).add ((m.along pos (m.heNext (m.fHalfedge (m.heFace h)))).add
      (m.along pos (m.heNext (m.heNext (m.fHalfedge (m.heFace h)))))) = ⟨0, 0, 0⟩ := by
    unfold along; rw [t]; simp only [V3.add, V3.sub]; ext <;> simp only <;> ring
  rw [hv.face_next l0, e0] at b2
  rw [e0] at a1 a2 a3 cr
  rw [a3] at cx
  rw [assign_apply, if_pos ((R.mf _).2 hf)]
  have ev : (pos (m.heVertex (m.heNext (m.fHalfedge (m.heFace h))))).sub (pos (m.heVertex (m.fHalfedge (m.heFace h)))) = m.along pos (m.fHalfedge (m.heFace h)) := rfl
  simp only [ev]
  change (vec (m.fHalfedge (m.heFace h))) = ⟨len (heEdge (m.fHalfedge (m.heFace h))), 0⟩ at f4
  have ag : (vec (m.fHalfedge (m.heFace h))).arg = 0 := by
    rw [f4]
    unfold V2.arg
    have : (⟨len (heEdge (m.fHalfedge (m.heFace h))), 0⟩ : ℂ) = ((len (heEdge (m.fHalfedge (m.heFace h))) : ℝ) : ℂ) := rfl
    simp only [this]
    exact Complex.arg_ofReal_of_nonneg lp.le
  have nz : N (m.heFace h) ≠ V3.zero := by
    intro q; rw [q] at a1; simp [V3.dot, V3.zero] at a1
  have rc : (m.along pos (m.fHalfedge (m.heFace h))).removeComponent (N (m.heFace h)) = m.along pos (m.fHalfedge (m.heFace h)) := by
    unfold V3.removeComponent
    rw [a2]
    simp only [V3.sub, V3.smul]; ext <;> simp
  rw [ag, rc, neg_zero, (C42_vector3_rotation_laws _ V3.zero _ nz 0 0).2.2.2.2, V3.zero_add']
  have un := V3.normalize_dot ne
  have us := V3.smul_norm_normalize ne
  rw [w1] at us
  generalize N (m.heFace h) = n at *
  generalize m.heFace h = f at *
  generalize m.fHalfedge f = g at *
  generalize (m.along pos g).normalize = X at *
  have nX : n.dot X = 0 := by
    rw [← us] at a2
    have : n.dot (X.smul (len (heEdge g))) = len (heEdge g) * n.dot X := by simp only [V3.dot, V3.smul]; ring
    rw [this] at a2
    exact (mul_eq_zero.1 a2).resolve_left lp.ne'
  have YY : (n.cross X).dot (n.cross X) = 1 := by
    have : (n.cross X).dot (n.cross X) = n.dot n * X.dot X - n.dot X * n.dot X := by simp only [V3.dot, V3.cross]; ring
    rw [this, a1, un, nX]; ring
  have XY : X.dot (n.cross X) = 0 := by simp only [V3.dot, V3.cross]; ring
  have XxY : X.cross (n.cross X) = n := by
    have : X.cross (n.cross X) = (n.smul (X.dot X)).sub (X.smul (n.dot X)) := by
      simp only [V3.dot, V3.cross, V3.smul, V3.sub]; ext <;> simp only <;> ring
    rw [this, un, nX]; simp only [V3.smul, V3.sub]; ext <;> simp
  refine ⟨un, YY, XY, XxY, ?_⟩
  -- the first edge
  have A1 : m.along pos g = (X.smul (vec g).x).add ((n.cross X).smul (vec g).y) := by
    rw [f4, ← us]; simp only [V3.smul, V3.add]; ext <;> simp
  -- the second edge
  have A2 : m.along pos (m.heNext g) = (X.smul (vec (m.heNext g)).x).add ((n.cross X).smul (vec (m.heNext g)).y) := by
    have ex := V3.expand a1 un nX b2
    have ab : (m.along pos g).dot (m.along pos (m.heNext g)) = (vec g).x * (vec (m.heNext g)).x + (vec g).y * (vec (m.heNext g)).y := by
      have s1 := V3.norm_sq (m.along pos g)
      have s2 := V3.norm_sq (m.along pos (m.heNext g))
      have s3 := V3.norm_sq (m.along pos (m.heNext (m.heNext g)))
      have t1 := V2.norm_sq (vec g)
      have t2 := V2.norm_sq (vec (m.heNext g))
      have t3 := V2.norm_sq (vec (m.heNext (m.heNext g)))
      rw [w1] at s1; rw [w2] at s2; rw [w3] at s3
      rw [v2.norm _ l0 x0] at t1; rw [nb] at t2; rw [nc] at t3
      rw [show len (g / 2) = len (heEdge g) from rfl] at t1
      rw [show len (m.heNext g / 2) = len (heEdge (m.heNext g)) from rfl] at t2
      rw [show len (m.heNext (m.heNext g) / 2) = len (heEdge (m.heNext (m.heNext g))) from rfl] at t3
      have c1 : m.along pos (m.heNext (m.heNext g)) = ((m.along pos g).add (m.along pos (m.heNext g))).neg := by
        have p1 := congrArg V3.x closed
        have p2 := congrArg V3.y closed
        have p3 := congrArg V3.z closed
        simp only [V3.add] at p1 p2 p3
        simp only [V3.add, V3.neg]
        ext <;> simp only <;> linarith
      have d1 : (vec (m.heNext (m.heNext g))).x = -((vec g).x + (vec (m.heNext g)).x) := by
        have p1 := congrArg V2.x cl
        simp only [V2.add] at p1; linarith
      have d2 : (vec (m.heNext (m.heNext g))).y = -((vec g).y + (vec (m.heNext g)).y) := by
        have p1 := congrArg V2.y cl
        simp only [V2.add] at p1; linarith
      rw [c1] at s3
      rw [d1, d2] at t3
      simp only [V3.dot, V3.add, V3.neg] at s1 s2 s3 ⊢
      linarith
    have hx' : (m.along pos (m.heNext g)).dot X = (vec (m.heNext g)).x := by
      apply mul_left_cancel₀ lp.ne'
      rw [← us, f4] at ab
      simp only [V3.dot, V3.smul] at ab ⊢
      linarith
    have hy' : (m.along pos (m.heNext g)).dot (n.cross X) = (vec (m.heNext g)).y := by
      apply mul_left_cancel₀ lp.ne'
      rw [f4] at cr
      unfold V2.cross at cr
      simp only at cr
      have k : n.dot ((m.along pos g).cross (m.along pos (m.heNext g))) = 2 * m.faceArea len f := by
        rw [cx]
        have : n.dot (n.smul (2 * m.faceArea len f)) = n.dot n * (2 * m.faceArea len f) := by simp only [V3.dot, V3.smul]; ring
        rw [this, a1, one_mul]
      rw [← us] at k
      have : n.dot ((X.smul (len (heEdge g))).cross (m.along pos (m.heNext g))) = len (heEdge g) * (m.along pos (m.heNext g)).dot (n.cross X) := by
        simp only [V3.dot, V3.smul, V3.cross]; ring
      rw [this] at k
      linarith
    rw [hx', hy'] at ex
    exact ex
  rcases cs with q | q | q
  · rw [q]; exact A1
  · rw [q]; exact A2
  · rw [q]
    have p1 := congrArg V3.x closed
    have p2 := congrArg V3.y closed
    have p3 := congrArg V3.z closed
    rw [A1, A2] at p1 p2 p3
    have r1 := congrArg V2.x cl
    have r2 := congrArg V2.y cl
    simp only [V3.add, V3.smul] at p1 p2 p3
    simp only [V2.add] at r1 r2
    have r1' : (vec (m.heNext (m.heNext g))).x = -((vec g).x + (vec (m.heNext g)).x) := by linarith
    have r2' : (vec (m.heNext (m.heNext g))).y = -((vec g).y + (vec (m.heNext g)).y) := by linarith
    rw [r1', r2']
    simp only [V3.add, V3.smul]
    ext <;> simp only <;> linarith

/-- **C70, vertex bases.** Where the vertex normal and the averaged direction do not vanish, the tangent basis of a vertex is orthonormal
and right-handed with the vertex normal. -/
theorem C70_vertex_basis (m : Mesh) (pos : ℕ → V3) (hv : m.Valid) (ht : m.TriFaces) (hn : m.NonDegenerate pos) :
    ∃ NV B, m.vertexNormalsE pos = .ok NV ∧ m.vertexTangentBasisE pos = .ok B ∧ ∀ v, m.vLive v → (NV v).norm = 1 → (B v).1 ≠ ⟨0, 0, 0⟩ →
      (B v).1.norm = 1 ∧ (B v).2.norm = 1 ∧ (B v).1.dot (B v).2 = 0 ∧ (B v).1.cross (B v).2 = NV v := by
  obtain ⟨vs, hs, is, es, fs, R⟩ := hv.ranges
  obtain ⟨len, l1, l2, F⟩ := edgeLengthsE_ok hv ht hn R
  obtain ⟨-, -, NV, -, -, n1, -⟩ := C70_vertex_normals m pos hv ht hn
  obtain ⟨vec, v1⟩ : ∃ vec, m.halfedgeVectorsInVertex len = .ok vec := by
    obtain ⟨sa, s1, s2, s3⟩ := cornerScaledAngles_ok hv F.metric R
    obtain ⟨vec, th, v1, -⟩ := halfedgeVectorsInVertex_ok hv ht F.metric R s1 s2 s3
    exact ⟨vec, v1⟩
  have key : ∀ v ∈ vs, ∃ l, m.navOutgoing v = .ok l := by
    intro v hvv
    obtain ⟨l, a, -⟩ := C49_vertex_outgoing m hv v (mem_verts.1 ((R.mv v).1 hvv))
    exact ⟨l, a⟩
  choose! L k1 using key
  set S : ℕ → V3 := fun v => (L v).foldl (fun s he => V3.add s (((m.along pos he).removeComponent (NV v)).rotateAround (NV v) (-(vec he).arg))) ⟨0, 0, 0⟩ with hS
  refine ⟨NV, assign (fun _ => (⟨0, 0, 0⟩, ⟨0, 0, 0⟩)) (fun v => ((S v).normalize, (NV v).cross (S v).normalize)) vs, n1, ?_, fun v hl un nz => ?_⟩
  · simp only [vertexTangentBasisE, bind, Except.bind, n1, l1, v1, R.v]
    refine assignM_ok (fun v hvv => ?_) _
    rw [k1 v hvv]
    rfl
  · have hvv := (R.mv v).2 (mem_verts.2 hl)
    rw [assign_apply, if_pos hvv] at nz ⊢
    simp only at nz ⊢
    have n1' : (NV v).dot (NV v) = 1 := by rw [← V3.norm_sq, un, one_mul]
    have nN : NV v ≠ V3.zero := by
      intro q; rw [q] at n1'; simp [V3.dot, V3.zero] at n1'
    have nn : (NV v).normalize = NV v := by
      have := V3.smul_norm_normalize nN
      rw [un] at this
      conv_rhs => rw [← this]
      simp [V3.smul]
    have ort : (NV v).dot (S v) = 0 := by
      have loop : ∀ (l : List ℕ) (s : V3), (NV v).dot s = 0 →
          (NV v).dot (l.foldl (fun s he => V3.add s (((m.along pos he).removeComponent (NV v)).rotateAround (NV v) (-(vec he).arg))) s) = 0 := by
        intro l
        induction l with
        | nil => exact fun s h => h
        | cons h l ih =>
          intro s hs
          rw [List.foldl_cons]
          apply ih
          rw [C42_vector3_rotateAround _ _ nN, nn]
          have e1 : (NV v).dot ((m.along pos h).removeComponent (NV v)) = 0 := by
            generalize m.along pos h = a
            generalize NV v = n at *
            simp only [V3.removeComponent, V3.dot, V3.sub, V3.smul] at n1' ⊢
            linear_combination (-(n.x * a.x + n.y * a.y + n.z * a.z)) * n1'
          generalize (m.along pos h).removeComponent (NV v) = a at *
          generalize Real.cos (-(vec h).arg) = c at *
          generalize NV v = n at *
          unfold rodrigues
          generalize Real.cos (-(vec h).arg) = c
          generalize Real.sin (-(vec h).arg) = d
          rw [e1]
          simp only [V3.dot, V3.add, V3.smul, V3.cross] at e1 hs ⊢
          linear_combination hs + c * e1
      exact loop _ _ (by simp [V3.dot])
    have sz : S v ≠ V3.zero := by
      intro q
      apply nz
      rw [q]
      simp [V3.normalize, V3.zero, V3.smul]
    have XX := V3.normalize_dot sz
    have nX : (NV v).dot (S v).normalize = 0 := by
      have : (NV v).dot (S v).normalize = (NV v).dot (S v) * (1 / Real.sqrt ((S v).x * (S v).x + (S v).y * (S v).y + (S v).z * (S v).z)) := by
        unfold V3.normalize V3.dot V3.smul; simp only; ring
      rw [this, ort, zero_mul]
    generalize (S v).normalize = X at *
    generalize NV v = n at *
    have unit : ∀ w : V3, w.dot w = 1 → w.norm = 1 := by
      intro w hw
      have := V3.norm_sq w
      rw [hw] at this
      have := V3.norm_nonneg w
      nlinarith
    refine ⟨unit _ XX, unit _ ?_, ?_, ?_⟩
    · have : (n.cross X).dot (n.cross X) = n.dot n * X.dot X - n.dot X * n.dot X := by simp only [V3.dot, V3.cross]; ring
      rw [this, n1', XX, nX]; ring
    · simp only [V3.dot, V3.cross]; ring
    · have : X.cross (n.cross X) = (n.smul (X.dot X)).sub (X.smul (n.dot X)) := by
        simp only [V3.dot, V3.cross, V3.smul, V3.sub]; ext <;> simp only <;> ring
      rw [this, XX, nX]; simp only [V3.smul, V3.sub]; ext <;> simp

/-- The hypotheses of C70. -/
example : tetra.Valid ∧ tetra.TriFaces ∧ tetra.NonDegenerate tetraPos ∧ tetra.vLive 0 ∧ (∀ h < 12, tetra.heLive h ∧ ¬ tetra.ext h ∧ ¬ tetra.ext (twin h)) :=
  ⟨tetra_valid, tetra_tri, tetraPos_nonDegenerate, by decide +kernel, by decide +kernel⟩

end Mesh
end GC
