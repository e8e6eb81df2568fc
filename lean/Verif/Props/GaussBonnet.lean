import Verif.IntrinsicBasic
import Mathlib.Tactic.Linarith
import Mathlib.Tactic.LinearCombination
import Mathlib.Tactic.FieldSimp
import Mathlib.Tactic.Positivity

/-! # C64: angles, curvatures and the theorem of Gauss and Bonnet -/

namespace GC
open Classical Finset

/-- The code's angle between sides `a` and `b`, opposite to `o`. -/
noncomputable def cang (a o b : ℝ) : ℝ := Real.arccos (clampR ((a * a + b * b - o * o) / (2 * a * b)) (-1) 1)

/-- The angle of a nondegenerate triangle: its cosine and sine. -/
theorem cang_spec {a o b : ℝ} (h : TriOK a o b) : 0 < cang a o b ∧ cang a o b < Real.pi ∧
    Real.cos (cang a o b) = (a * a + b * b - o * o) / (2 * a * b) ∧
    Real.sin (cang a o b) = 2 * triangleArea a o b / (a * b) := by
  have pa := h.pa; have pb := h.pc; have po := h.pb
  have h1 : (a * a + b * b - o * o) / (2 * a * b) < 1 := by
    rw [div_lt_one (by positivity)]
    nlinarith [h.ha, h.hc, mul_pos (sub_pos.2 h.ha) (sub_pos.2 h.hc)]
  have h2 : -1 < (a * a + b * b - o * o) / (2 * a * b) := by
    rw [lt_div_iff₀ (by positivity)]
    nlinarith [h.hb, mul_pos (sub_pos.2 h.hb) (by linarith : 0 < a + b + o)]
  set q := (a * a + b * b - o * o) / (2 * a * b) with hq
  have e : cang a o b = Real.arccos q := by
    unfold cang clampR
    rw [if_neg (by linarith), if_neg (by linarith)]
  rw [e]
  refine ⟨Real.arccos_pos.2 h1, ?_, Real.cos_arccos h2.le h1.le, ?_⟩
  · rcases (Real.arccos_le_pi q).lt_or_eq with g | g
    · exact g
    · rw [Real.arccos_eq_pi] at g; linarith
  · rw [Real.sin_arccos]
    have ha := h.area_pos
    have hs := h.swap.area_sq
    have e2 : triangleArea a b o = triangleArea a o b := by unfold triangleArea; congr 2; ring
    rw [e2] at hs
    rw [show 1 - q ^ 2 = (2 * triangleArea a o b / (a * b)) ^ 2 by
      rw [hq]; field_simp; linear_combination -hs]
    exact Real.sqrt_sq (by positivity)

/-- The angles of a triangle sum to π. -/
theorem cang_sum {a o b : ℝ} (h : TriOK a o b) : cang a o b + cang o b a + cang b a o = Real.pi := by
  have pa := h.pa; have pb := h.pc; have po := h.pb
  obtain ⟨x0, x1, xc, xs⟩ := cang_spec h
  obtain ⟨y0, y1, yc, ys⟩ := cang_spec h.rot
  obtain ⟨z0, z1, zc, zs⟩ := cang_spec h.rot.rot
  have ha := h.area_pos
  have hs := h.swap.area_sq
  have e2 : triangleArea a b o = triangleArea a o b := by unfold triangleArea; congr 2; ring
  have e3 : triangleArea o b a = triangleArea a o b := (triangleArea_rot a o b).symm
  rw [e2] at hs
  rw [e3] at ys
  set x := cang a o b
  set y := cang o b a
  set z := cang b a o
  have c : Real.cos (x + y) = Real.cos (Real.pi - z) := by
    rw [Real.cos_add, Real.cos_pi_sub, xc, yc, xs, ys, zc]
    field_simp
    linear_combination -hs
  have s : 0 < Real.sin (x + y) := by
    rw [Real.sin_add, xc, yc, xs, ys]
    have : 2 * triangleArea a o b / (a * b) * ((o * o + a * a - b * b) / (2 * o * a)) +
        (a * a + b * b - o * o) / (2 * a * b) * (2 * triangleArea a o b / (o * a)) = 2 * triangleArea a o b / (b * o) := by
      field_simp; ring
    rw [this]; positivity
  have lt : x + y ≤ Real.pi := by
    by_contra q
    have : Real.sin (x + y) ≤ 0 := by
      have := Real.sin_nonneg_of_nonneg_of_le_pi (x := x + y - Real.pi) (by linarith) (by linarith)
      rw [Real.sin_sub_pi] at this; linarith
    linarith
  have := Real.injOn_cos ⟨by linarith, lt⟩ ⟨by linarith, by linarith⟩ c
  linarith

namespace Mesh
variable {m : Mesh} {len : ℕ → ℝ} {vs hs is es fs : List ℕ}

theorem cornerAngle_eq (i : ℕ) : m.cornerAngle len i =
    cang (len (heEdge i)) (len (heEdge (m.heNext i))) (len (heEdge (m.heNext (m.heNext i)))) := rfl

/-! ## What the loops compute -/

theorem faceAreas_ok (R : m.Ranges vs hs is es fs) :
    ∃ A, m.faceAreas len = .ok A ∧ ∀ f, A f = if f ∈ m.faces then m.faceArea len f else 0 := by
  refine ⟨_, by unfold faceAreas; rw [R.f]; rfl, fun f => ?_⟩
  rw [assign_apply]; simp only [R.mf]

theorem cornerAngles_ok (R : m.Ranges vs hs is es fs) :
    ∃ ca, m.cornerAngles len = .ok ca ∧ ∀ i, ca i = if i ∈ m.ints then m.cornerAngle len i else 0 := by
  refine ⟨_, by unfold cornerAngles; rw [R.i]; rfl, fun f => ?_⟩
  rw [assign_apply]; simp only [R.mi]

theorem vertexAngleSums_ok (R : m.Ranges vs hs is es fs) :
    ∃ s, m.vertexAngleSums len = .ok s ∧ ∀ v, s v = ∑ i ∈ m.ints with m.heVertex i = v, m.cornerAngle len i := by
  obtain ⟨ca, h1, h2⟩ := cornerAngles_ok (len := len) R
  refine ⟨_, by unfold vertexAngleSums; rw [h1, R.i]; rfl, fun v => ?_⟩
  rw [accum_apply, sum_of_nodup R.ni R.mi, sum_filter]
  refine sum_congr rfl (fun i hi => ?_)
  rw [h2, if_pos hi]

theorem vHe_int' (hv : m.Valid) {v : ℕ} (hl : m.vLive v) : m.vHalfedge v ∈ m.ints ∧ m.heVertex (m.vHalfedge v) = v := by
  obtain ⟨l0, e0⟩ := hv.v_he v hl
  refine ⟨mem_ints.2 ⟨l0, fun hx => ?_⟩, e0⟩
  have := hv.bdy_first _ l0 hx
  rw [e0] at this
  exact hv.ext_twin l0 hx this

theorem angle_pos (hv : m.Valid) (hm : m.Metric len) {i : ℕ} (hi : i ∈ m.ints) : 0 < m.cornerAngle len i := by
  obtain ⟨h1, h2⟩ := mem_ints.1 hi
  exact (cang_spec (hm i h1 h2)).1

theorem angleSum_pos (hv : m.Valid) (hm : m.Metric len) {v : ℕ} (hl : m.vLive v) :
    0 < ∑ i ∈ m.ints with m.heVertex i = v, m.cornerAngle len i := by
  obtain ⟨h1, h2⟩ := vHe_int' hv hl
  refine sum_pos (fun i hi => angle_pos hv hm (mem_filter.1 hi).1) ⟨_, mem_filter.2 ⟨h1, h2⟩⟩

/-- The total of all corner angles. -/
theorem angle_total (hv : m.Valid) (ht : m.TriFaces) (hm : m.Metric len) :
    ∑ i ∈ m.ints, m.cornerAngle len i = m.nF * Real.pi := by
  obtain ⟨vs, hs, is, es, fs, R⟩ := hv.ranges
  rw [← sum_faces hv ht, ← R.cf]
  rw [sum_congr rfl (g := fun _ => Real.pi), sum_const, nsmul_eq_mul]
  intro f hf
  obtain ⟨q1, q2⟩ := mem_faces.1 hf
  obtain ⟨l0, e0⟩ := hv.f_he f q1
  have x0 : ¬ m.ext (m.fHalfedge f) := face_not_ext hv (by rw [e0]; exact q2)
  have t := ht _ l0 x0
  simp only [cornerAngle_eq, t]
  exact cang_sum (hm _ l0 x0)

theorem euler_count (hv : m.Valid) (ht : m.TriFaces) :
    2 * (m.nE : ℝ) = 3 * m.nF + ({v ∈ m.verts | m.vIsBoundary v} : Finset ℕ).card := by
  have h1 := card_hes hv
  have h2 := card_ints hv ht
  have h3 := card_bdy hv
  rw [hes_split.1, card_union_of_disjoint hes_split.2, h2, h3] at h1
  exact_mod_cast h1.symm

/-! ## C64 -/

/-- **C64, angles.** On every triangle mesh whose edge lengths satisfy the triangle inequalities strictly, the corner
angles lie strictly between 0 and π, satisfy the law of cosines, and sum to π in each face. -/
theorem C64_angles (m : Mesh) (len : ℕ → ℝ) (hv : m.Valid) (ht : m.TriFaces) (hm : m.Metric len) :
    ∃ ca, m.cornerAngles len = .ok ca ∧ ∀ h, m.heLive h → ¬ m.ext h →
      0 < ca h ∧ ca h < Real.pi ∧ ca h + ca (m.heNext h) + ca (m.heNext (m.heNext h)) = Real.pi ∧
      len (m.heNext h / 2) ^ 2 = len (h / 2) ^ 2 + len (m.heNext (m.heNext h) / 2) ^ 2
        - 2 * len (h / 2) * len (m.heNext (m.heNext h) / 2) * Real.cos (ca h) := by
  obtain ⟨vs, hs, is, es, fs, R⟩ := hv.ranges
  obtain ⟨ca, h1, h2⟩ := cornerAngles_ok (len := len) R
  refine ⟨ca, h1, fun h hl hx => ?_⟩
  have i0 := mem_ints.2 ⟨hl, hx⟩
  have i1 := int_next hv i0
  have i2 := int_next hv i1
  have t := ht h hl hx
  have ok := hm h hl hx
  obtain ⟨a, b, c, -⟩ := cang_spec ok
  rw [h2, h2, h2, if_pos i0, if_pos i1, if_pos i2]
  refine ⟨a, b, ?_, ?_⟩
  · simp only [cornerAngle_eq, t]
    exact cang_sum ok
  · rw [cornerAngle_eq, c]
    have := ok.pa; have := ok.pb; have := ok.pc
    unfold heEdge at *
    field_simp
    ring

/-- **C64, curvatures.** The Gaussian curvature at an interior vertex is 2π minus the angles of the corners at the vertex; at a
boundary vertex it is 0. The cached and the immediate version agree. -/
theorem C64_curvature (m : Mesh) (len : ℕ → ℝ) (hv : m.Valid) :
    ∃ ca K, m.cornerAngles len = .ok ca ∧ m.vertexGaussianCurvatures len = .ok K ∧ ∀ v, m.vLive v →
      K v = (if m.OnBoundary v then 0 else 2 * Real.pi - ∑ h ∈ range m.nHeFill with m.heLive h ∧ ¬ m.ext h ∧ m.heVertex h = v, ca h) ∧
      m.vertexGaussianCurvature len v = .ok (K v) := by
  obtain ⟨vs, hs, is, es, fs, R⟩ := hv.ranges
  obtain ⟨ca, h1, h2⟩ := cornerAngles_ok (len := len) R
  obtain ⟨s, s1, s2⟩ := vertexAngleSums_ok (len := len) R
  refine ⟨ca, _, h1, by unfold vertexGaussianCurvatures; rw [s1, R.v]; rfl, fun v hl => ?_⟩
  have hK : (vs.foldl (fun d v => if ¬ m.vIsBoundary v then Function.update d v (2 * Real.pi - s v) else d) (fun _ => 0)) v =
      if m.vIsBoundary v then 0 else 2 * Real.pi - s v := by
    have : ∀ (l : List ℕ) (d : ℕ → ℝ),
        (l.foldl (fun d v => if ¬ m.vIsBoundary v then Function.update d v (2 * Real.pi - s v) else d) d) v =
        if v ∈ l ∧ ¬ m.vIsBoundary v then 2 * Real.pi - s v else d v := by
      intro l
      induction l with
      | nil => simp
      | cons a l ih =>
        intro d
        rw [List.foldl_cons, ih]
        by_cases e : v = a
        · subst e
          by_cases hb : m.vIsBoundary v
          · simp [hb]
          · simp [hb]
        · by_cases ha : m.vIsBoundary a
          · simp [ha, e]
          · simp [ha, e]
    rw [this]
    have mv : v ∈ vs := (R.mv v).2 (mem_verts.2 hl)
    by_cases hb : m.vIsBoundary v
    · rw [if_neg (fun q => q.2 hb), if_pos hb]
    · rw [if_pos ⟨mv, hb⟩, if_neg hb]
  rw [hK]
  constructor
  · simp only [hv.vIsBoundary_iff hl, s2]
    split
    · rfl
    · congr 1
      have : ({i ∈ m.ints | m.heVertex i = v} : Finset ℕ) = {h ∈ range m.nHeFill | m.heLive h ∧ ¬ m.ext h ∧ m.heVertex h = v} := by
        ext i; simp only [mem_filter, mem_ints, mem_range]
        constructor
        · rintro ⟨⟨a, b⟩, c⟩; exact ⟨a.1, a, b, c⟩
        · rintro ⟨-, a, b, c⟩; exact ⟨⟨a, b⟩, c⟩
      rw [← this]
      refine sum_congr rfl (fun i hi => ?_)
      rw [h2, if_pos (mem_filter.1 hi).1]
  · unfold vertexGaussianCurvature
    by_cases hb : m.vIsBoundary v
    · rw [if_pos hb, if_pos hb]
    · rw [if_neg hb, if_neg hb]
      obtain ⟨l0, e0⟩ := hv.v_he v hl
      obtain ⟨k, hk, hhit, hmin, hok⟩ := orbitList_ok (hv.back_vNext l0) (fun z hz => (hv.live_of_orb_vNext l0 hz).1)
      obtain ⟨l, e, nd, hm', -⟩ := hv.outgoingHalfedges_ok hl
      have el : l = (List.range (k+1)).map (fun j => m.vNext^[j] (m.vHalfedge v)) := by
        unfold outgoingHalfedges at e; rw [hok] at e; injection e with e; exact e.symm
      rw [navList_eq hhit hmin (by omega), ← el]
      show Except.ok _ = Except.ok _
      rw [foldl_sub, s2, sum_of_nodup (nd.filter _) (S := {i ∈ m.ints | m.heVertex i = v})]
      intro i
      rw [List.mem_filter, hm', mem_filter, mem_ints, decide_eq_true_eq, heInterior_iff]
      tauto

/-- **C64, Gauss–Bonnet.** The Gaussian curvatures of the vertices and the turning angles π − Σ angles of the boundary vertices add up
to 2π(V − E + F), on every triangle mesh with nondegenerate triangles, closed or not. -/
theorem C64_gauss_bonnet (m : Mesh) (len : ℕ → ℝ) (hv : m.Valid) (ht : m.TriFaces) (hm : m.Metric len) :
    ∃ s K, m.vertexAngleSums len = .ok s ∧ m.vertexGaussianCurvatures len = .ok K ∧
      ∑ v ∈ range m.nVFill with m.vLive v, K v + ∑ v ∈ range m.nVFill with m.vLive v ∧ m.OnBoundary v, (Real.pi - s v) =
        2 * Real.pi * (m.nV - m.nE + m.nF) := by
  obtain ⟨vs, hs, is, es, fs, R⟩ := hv.ranges
  obtain ⟨s, s1, s2⟩ := vertexAngleSums_ok (len := len) R
  obtain ⟨ca, K, c1, k1, k2⟩ := C64_curvature m len hv
  obtain ⟨ca', c1', c2⟩ := cornerAngles_ok (len := len) R
  rw [c1] at c1'; injection c1' with c1'; subst c1'
  refine ⟨s, K, s1, k1, ?_⟩
  have eV : ({v ∈ range m.nVFill | m.vLive v} : Finset ℕ) = m.verts := rfl
  have eB : ({v ∈ range m.nVFill | m.vLive v ∧ m.OnBoundary v} : Finset ℕ) = {v ∈ m.verts | m.vIsBoundary v} := by
    ext v; simp only [mem_filter, mem_range, mem_verts]
    constructor
    · rintro ⟨-, a, b⟩; exact ⟨a, (hv.vIsBoundary_iff a).2 b⟩
    · rintro ⟨a, b⟩; exact ⟨a.1, a, (hv.vIsBoundary_iff a).1 b⟩
  have hKs : ∀ v ∈ m.verts, K v = if m.vIsBoundary v then 0 else 2 * Real.pi - s v := by
    intro v h
    have hl := mem_verts.1 h
    rw [(k2 v hl).1]
    simp only [hv.vIsBoundary_iff hl]
    split
    · rfl
    · congr 1
      rw [s2]
      have : ({i ∈ m.ints | m.heVertex i = v} : Finset ℕ) = {h ∈ range m.nHeFill | m.heLive h ∧ ¬ m.ext h ∧ m.heVertex h = v} := by
        ext i; simp only [mem_filter, mem_ints, mem_range]
        constructor
        · rintro ⟨⟨a, b⟩, c⟩; exact ⟨a.1, a, b, c⟩
        · rintro ⟨-, a, b, c⟩; exact ⟨⟨a, b⟩, c⟩
      rw [← this]
      refine sum_congr rfl (fun i hi => ?_)
      rw [c2, if_pos (mem_filter.1 hi).1]
  rw [eV, eB, sum_congr rfl hKs, sum_filter, ← sum_add_distrib]
  have e1 : ∀ v, (if m.vIsBoundary v then (0 : ℝ) else 2 * Real.pi - s v) + (if m.vIsBoundary v then Real.pi - s v else 0) =
      2 * Real.pi - s v - Real.pi * (if m.vIsBoundary v then 1 else 0) := by
    intro v; split <;> ring
  simp only [e1]
  have eb : ∑ v ∈ m.verts, Real.pi * (if m.vIsBoundary v then (1 : ℝ) else 0) =
      Real.pi * ({v ∈ m.verts | m.vIsBoundary v} : Finset ℕ).card := by rw [← mul_sum, sum_boole]
  rw [sum_sub_distrib, sum_sub_distrib, eb, sum_const, R.cv]
  have tot : ∑ v ∈ m.verts, s v = m.nF * Real.pi := by
    rw [← angle_total hv ht hm, ← sum_verts hv]
    exact sum_congr rfl (fun v _ => by rw [s2, sum_filter])
  rw [tot]
  have := euler_count hv ht
  rw [nsmul_eq_mul]
  linear_combination Real.pi * this

/-- **C64, closed meshes.** Without boundary the Gaussian curvatures sum to 2π times `eulerCharacteristic()`. -/
theorem C64_gauss_bonnet_closed (m : Mesh) (len : ℕ → ℝ) (hv : m.Valid) (ht : m.TriFaces) (hm : m.Metric len) (hb : m.nBL = 0) :
    ∃ K, m.vertexGaussianCurvatures len = .ok K ∧
      ∑ v ∈ range m.nVFill with m.vLive v, K v = 2 * Real.pi * (m.eulerCharacteristic : ℝ) := by
  obtain ⟨s, K, -, k1, k2⟩ := C64_gauss_bonnet m len hv ht hm
  refine ⟨K, k1, ?_⟩
  have : ({v ∈ range m.nVFill | m.vLive v ∧ m.OnBoundary v} : Finset ℕ) = ∅ := by
    refine filter_eq_empty_iff.2 ?_
    rintro v - ⟨hl, hB⟩
    have h1 := (hv.vIsBoundary_iff hl).2 hB
    obtain ⟨l0, e0⟩ := hv.v_he v hl
    have hx : m.ext (twin (m.vHalfedge v)) := by
      unfold vIsBoundary heIsInterior faceIsBL at h1; unfold ext; omega
    have hf := hv.face_live _ (hv.twin_live _ l0)
    have := hv.face_ext_region (hv.twin_live _ l0) hx
    have := hv.cnt_bl
    have := hf.1
    omega
  rw [this, sum_empty, add_zero] at k2
  rw [k2]; unfold eulerCharacteristic; rw [hb]; push_cast; ring

/-- **C64, scaled angles and face curvatures.** The scaled corner angles around a vertex sum to 2π, at the boundary to π, and the
curvatures of the faces sum to 2π(V − E + F), with boundary or without. -/
theorem C64_face_gauss_bonnet (m : Mesh) (len : ℕ → ℝ) (hv : m.Valid) (ht : m.TriFaces) (hm : m.Metric len) :
    ∃ sa K, m.cornerScaledAngles len = .ok sa ∧ m.faceGaussianCurvatures len = .ok K ∧
      (∀ v, m.vLive v → ∑ h ∈ range m.nHeFill with m.heLive h ∧ ¬ m.ext h ∧ m.heVertex h = v, sa h =
        if m.OnBoundary v then Real.pi else 2 * Real.pi) ∧
      ∑ f ∈ range m.nFFill with m.fLive f, K f = 2 * Real.pi * (m.nV - m.nE + m.nF) := by
  obtain ⟨vs, hs, is, es, fs, R⟩ := hv.ranges
  obtain ⟨ca, c1, c2⟩ := cornerAngles_ok (len := len) R
  obtain ⟨s, s1, s2⟩ := vertexAngleSums_ok (len := len) R
  set sa := assign (fun _ => 0) (fun c => if m.vIsBoundary (m.heVertex c) then Real.pi / s (m.heVertex c) * ca c
    else 2 * Real.pi / s (m.heVertex c) * ca c) is with hsa
  have sa1 : m.cornerScaledAngles len = .ok sa := by
    unfold cornerScaledAngles; rw [c1, s1, R.i]; rfl
  have sa2 : ∀ i ∈ m.ints, sa i = (if m.vIsBoundary (m.heVertex i) then Real.pi else 2 * Real.pi) / s (m.heVertex i) * m.cornerAngle len i := by
    intro i hi
    rw [hsa, assign_apply, if_pos ((R.mi i).2 hi), c2, if_pos hi]
    split <;> rfl
  have per : ∀ v ∈ m.verts, ∑ i ∈ m.ints with m.heVertex i = v, sa i = if m.vIsBoundary v then Real.pi else 2 * Real.pi := by
    intro v h
    have hl := mem_verts.1 h
    have pos := angleSum_pos hv hm hl
    rw [← s2] at pos
    rw [sum_congr rfl (g := fun i => (if m.vIsBoundary v then Real.pi else 2 * Real.pi) / s v * m.cornerAngle len i)]
    · rw [← mul_sum, ← s2, div_mul_cancel₀ _ pos.ne']
    · intro i hi
      obtain ⟨a, b⟩ := mem_filter.1 hi
      rw [sa2 i a, b]
  refine ⟨sa, _, sa1, by unfold faceGaussianCurvatures; rw [sa1, R.f]; rfl, fun v hl => ?_, ?_⟩
  · have h := per v (mem_verts.2 hl)
    simp only [← hv.vIsBoundary_iff hl]
    rw [← h]
    congr 1
    ext i; simp only [mem_filter, mem_ints, mem_range]
    constructor
    · rintro ⟨-, a, b, c⟩; exact ⟨⟨a, b⟩, c⟩
    · rintro ⟨⟨a, b⟩, c⟩; exact ⟨a.1, a, b, c⟩
  · have eF : ({f ∈ range m.nFFill | m.fLive f} : Finset ℕ) = m.faces := rfl
    rw [eF]
    rw [sum_congr rfl (g := fun f => -Real.pi + (sa (m.fHalfedge f) + sa (m.heNext (m.fHalfedge f)) +
      sa (m.heNext (m.heNext (m.fHalfedge f)))))]
    · rw [sum_add_distrib, sum_faces hv ht sa, ← sum_verts hv]
      have eb : ∑ v ∈ m.verts, Real.pi * (if m.vIsBoundary v then (1 : ℝ) else 0) =
          Real.pi * ({v ∈ m.verts | m.vIsBoundary v} : Finset ℕ).card := by rw [← mul_sum, sum_boole]
      have ev : ∑ v ∈ m.verts, ∑ i ∈ m.ints, (if m.heVertex i = v then sa i else 0) =
          ∑ v ∈ m.verts, (2 * Real.pi - Real.pi * (if m.vIsBoundary v then (1 : ℝ) else 0)) := by
        refine sum_congr rfl (fun v h => ?_)
        rw [← sum_filter, per v h]; split <;> ring
      rw [ev, sum_sub_distrib, eb, sum_const, sum_const, R.cv, R.cf]
      have := euler_count hv ht
      rw [nsmul_eq_mul, nsmul_eq_mul]
      linear_combination Real.pi * this
    · intro f hf
      rw [assign_apply, if_pos ((R.mf f).2 hf)]
      ring

theorem metric_one (m : Mesh) : m.Metric (fun _ => 1) := fun _ _ _ => ⟨by norm_num, by norm_num, by norm_num, by norm_num, by norm_num, by norm_num⟩

/-- The tetrahedron and the square cut into two triangles, all edges of length one. -/
example : tetra.Valid ∧ tetra.TriFaces ∧ tetra.Metric (fun _ => 1) ∧ tetra.nBL = 0 ∧
    square.Valid ∧ square.TriFaces ∧ square.Metric (fun _ => 1) ∧ square.nBL = 1 :=
  ⟨tetra_valid, fun i hi _ => (by decide +kernel : ∀ i < 12, tetra.heNext (tetra.heNext (tetra.heNext i)) = i) i hi.1, metric_one _, rfl,
    square_valid, fun i hi hx => (by decide +kernel : ∀ i < 10, ¬ square.ext i → square.heNext (square.heNext (square.heNext i)) = i) i hi.1 hx,
    metric_one _, rfl⟩

end Mesh
end GC
