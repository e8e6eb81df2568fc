import Verif.DelaunayMesh
import Verif.Props.Flip

/-! # Properties C60, C61: intrinsic Delaunay flipping -/

namespace GC
namespace Mesh

/-- The angle opposite to the side `a` of a triangle with sides `a, b, c`. -/
noncomputable def oppAngle (a b c : ℝ) : ℝ := Real.arccos ((b ^ 2 + c ^ 2 - a ^ 2) / (2 * b * c))

theorem cotw_eq_cot {a b c : ℝ} (h : TriOK a b c) : cotw a b c = Real.cot (oppAngle a b c) / 2 := by
  have pb := h.pb; have pc := h.pc
  have hA := h.area_pos
  have hs := h.area_sq
  unfold cotw oppAngle
  set x := (b ^ 2 + c ^ 2 - a ^ 2) / (2 * b * c) with hx
  have hx1 : x ≤ 1 := by
    rw [hx, div_le_one (by positivity)]
    nlinarith [h.ha, h.hb, h.hc, h.pa]
  have hx2 : -1 ≤ x := by
    rw [hx, le_div_iff₀ (by positivity)]
    nlinarith [h.ha, h.hb, h.hc, h.pa]
  rw [Real.cot_eq_cos_div_sin, Real.cos_arccos hx2 hx1, Real.sin_arccos]
  have e : 1 - x ^ 2 = (2 * triangleArea a b c / (b * c)) ^ 2 := by
    have : (2 * triangleArea a b c / (b * c)) ^ 2 = 16 * triangleArea a b c ^ 2 / (4 * b ^ 2 * c ^ 2) := by
      field_simp; ring
    rw [this, hs, hx]
    field_simp
    ring
  rw [e, Real.sqrt_sq (by positivity), hx]
  field_simp
  ring

theorem oppAngle_pos {a b c : ℝ} (h : TriOK a b c) : 0 < oppAngle a b c ∧ oppAngle a b c < Real.pi := by
  have pb := h.pb; have pc := h.pc
  unfold oppAngle
  constructor
  · rw [Real.arccos_pos, div_lt_one (by positivity)]
    nlinarith [h.ha, h.hb, h.hc, h.pa]
  · rw [Real.arccos_lt_pi, lt_div_iff₀ (by positivity)]
    nlinarith [h.ha, h.hb, h.hc, h.pa]

/-- A nonnegative sum of cotangents of two angles of triangles: the angles add up to at most `π`. -/
theorem angle_sum_le {x y : ℝ} (hx : 0 < x ∧ x < Real.pi) (hy : 0 < y ∧ y < Real.pi)
    (h : 0 ≤ Real.cot x + Real.cot y) : x + y ≤ Real.pi := by
  have sx := Real.sin_pos_of_pos_of_lt_pi hx.1 hx.2
  have sy := Real.sin_pos_of_pos_of_lt_pi hy.1 hy.2
  have hs : 0 ≤ Real.sin (x + y) := by
    have : Real.sin (x + y) = (Real.cot x + Real.cot y) * (Real.sin x * Real.sin y) := by
      rw [Real.sin_add, Real.cot_eq_cos_div_sin, Real.cot_eq_cos_div_sin]
      field_simp
      ring
    rw [this]; positivity
  by_contra hc
  push Not at hc
  have : Real.sin (x + y - Real.pi) = - Real.sin (x + y) := Real.sin_sub_pi _
  have := Real.sin_pos_of_pos_of_lt_pi (x := x + y - Real.pi) (by linarith) (by linarith)
  linarith

/-- A Euclidean flip of an edge: the connectivity is flipped, only the length of the flipped edge changes, and it
becomes the other diagonal of the two triangles laid out in the plane, which form a strictly convex quadrilateral. -/
def EuclideanFlip (s s' : Mesh × (ℕ → ℝ)) : Prop :=
  ∃ e, s.1.heLive (eHalfedge e) ∧ s.1.flip e false = .ok (s'.1, true) ∧ (∀ i, i ≠ e → s'.2 i = s.2 i) ∧
    let a := eHalfedge e
    ConvexQuad (s.2 (heEdge (s.1.heNext a))) (s.2 (heEdge (s.1.heNext (s.1.heNext a))))
      (s.2 (heEdge (s.1.heNext (twin a)))) (s.2 (heEdge (s.1.heNext (s.1.heNext (twin a))))) (s.2 e) (s'.2 e)

/-- A Ptolemaic flip: the product of the diagonals is the sum of the products of opposite sides. -/
def PtolemaicFlip (s s' : Mesh × (ℕ → ℝ)) : Prop :=
  ∃ e, s.1.heLive (eHalfedge e) ∧ s.1.flip e false = .ok (s'.1, true) ∧ (∀ i, i ≠ e → s'.2 i = s.2 i) ∧
    let a := eHalfedge e
    s'.2 e * s.2 e = s.2 (heEdge (s.1.heNext a)) * s.2 (heEdge (s.1.heNext (twin a))) +
      s.2 (heEdge (s.1.heNext (s.1.heNext a))) * s.2 (heEdge (s.1.heNext (s.1.heNext (twin a))))

/-- Sum of the half cotangents of the angles opposite to an interior edge. -/
noncomputable def cotSum (m : Mesh) (len : ℕ → ℝ) (e : ℕ) : ℝ :=
  let half := fun i => Real.cot (oppAngle (len (heEdge i)) (len (heEdge (m.heNext i))) (len (heEdge (m.heNext (m.heNext i))))) / 2
  half (eHalfedge e) + half (twin (eHalfedge e))

/-- The two angles opposite to an edge. -/
noncomputable def angleSum (m : Mesh) (len : ℕ → ℝ) (e : ℕ) : ℝ :=
  let ang := fun i => oppAngle (len (heEdge i)) (len (heEdge (m.heNext i))) (len (heEdge (m.heNext (m.heNext i))))
  ang (eHalfedge e) + ang (twin (eHalfedge e))

variable {m : Mesh} {len : ℕ → ℝ}

theorem weight_eq (hv : m.Valid) (ht : m.TriFaces) {e : ℕ} (he : m.heLive (eHalfedge e)) (hb : ¬ m.eIsBoundary e) :
    m.edgeCotanWeight len e =
      cotw (len (heEdge (eHalfedge e))) (len (heEdge (m.heNext (eHalfedge e)))) (len (heEdge (m.heNext (m.heNext (eHalfedge e))))) +
      cotw (len (heEdge (twin (eHalfedge e)))) (len (heEdge (m.heNext (twin (eHalfedge e)))))
        (len (heEdge (m.heNext (m.heNext (twin (eHalfedge e)))))) := by
  unfold edgeCotanWeight
  rw [cotw_he hv ht len he (hv.edge_int e he), cotw_he hv ht len (hv.twin_live _ he) (not_bdy_iff.1 hb)]

theorem weight_eq_cotSum (hv : m.Valid) (ht : m.TriFaces) (hM : m.Metric len) {e : ℕ} (he : m.heLive (eHalfedge e))
    (hb : ¬ m.eIsBoundary e) : m.edgeCotanWeight len e = m.cotSum len e := by
  rw [weight_eq hv ht he hb]
  unfold cotSum
  rw [cotw_eq_cot (hM _ he (hv.edge_int e he)), cotw_eq_cot (hM _ (hv.twin_live _ he) (not_bdy_iff.1 hb))]

theorem cotw_iso {a b : ℝ} : 0 ≤ cotw a a b ∧ 0 ≤ cotw a b a := by
  have : ∀ x y z : ℝ, 0 ≤ triangleArea x y z := fun x y z => Real.sqrt_nonneg _
  unfold cotw
  constructor
  · refine div_nonneg (div_nonneg ?_ (by have := this a a b; positivity)) (by norm_num)
    nlinarith
  · refine div_nonneg (div_nonneg ?_ (by have := this a b a; positivity)) (by norm_num)
    nlinarith

theorem edge_a (e : ℕ) : heEdge (eHalfedge e) = e := heEdge_eq_iff.2 (Or.inl rfl)
theorem edge_b (e : ℕ) : heEdge (twin (eHalfedge e)) = e := heEdge_eq_iff.2 (Or.inr rfl)

/-- An edge that needs a flip is flippable. -/
theorem flipOK_of_weight (hv : m.Valid) (ht : m.TriFaces) {e : ℕ} (he : m.heLive (eHalfedge e))
    (hb : ¬ m.eIsBoundary e) (hw : m.edgeCotanWeight len e < 0) : FlipOK m (eHalfedge e) := by
  have xa := hv.edge_int e he
  have xb := not_bdy_iff.1 hb
  have ta := ht _ he xa
  have tb := ht _ (hv.twin_live _ he) xb
  rw [weight_eq hv ht he hb, edge_a, edge_b] at hw
  refine ⟨he, xa, xb, ta, tb, fun c => ?_, fun c => ?_⟩
  · have c2 : m.heNext (m.heNext (twin (eHalfedge e))) = eHalfedge e := by rw [← c]; exact ta
    rw [c2, edge_a, c, edge_b] at hw
    have h1 := (cotw_iso (a := len e) (b := len (heEdge (m.heNext (twin (eHalfedge e)))))).1
    have h2 := (cotw_iso (a := len e) (b := len (heEdge (m.heNext (twin (eHalfedge e)))))).2
    linarith
  · have c2 : m.heNext (m.heNext (eHalfedge e)) = twin (eHalfedge e) := by
      have := tb; rw [c] at this; exact this
    rw [c, c2, edge_a, edge_b] at hw
    have h1 := (cotw_iso (a := len e) (b := len (heEdge (m.heNext (eHalfedge e))))).1
    have h2 := (cotw_iso (a := len e) (b := len (heEdge (m.heNext (eHalfedge e))))).2
    linarith

theorem flipWith_ok {e : ℕ} (h : FlipOK m (eHalfedge e)) (l : ℝ) :
    m.flipWith len e l = .ok (m.flipCore (eHalfedge e), fun i => if i = e then l else len i, true) := by
  unfold flipWith; rw [flip_of_ok h]

/-- The invariant of a Euclidean run. -/
def TriMetric (m : Mesh) (len : ℕ → ℝ) : Prop := m.Valid ∧ m.TriFaces ∧ m.Metric len

/-- Facts that do not depend on the kind of flip. -/
theorem flip_frame (hv : m.Valid) {e : ℕ} (h : FlipOK m (eHalfedge e)) {m1 : Mesh}
    (hm : m1 = m.flipCore (eHalfedge e)) :
    m1.Valid ∧ (∀ i, m1.heLive i ↔ m.heLive i) ∧ (∀ i, m.heLive i → (m1.ext i ↔ m.ext i)) ∧
      (∀ x ∈ m1.neighEdges e, m1.heLive (eHalfedge x)) ∧ (∀ x, m.heLive (eHalfedge x) → (m1.eIsBoundary x ↔ m.eIsBoundary x)) := by
  subst hm
  have V := flipView hv h
  have hv1 := flipCore_valid hv h
  refine ⟨hv1, V.live, V.ext, ?_, ?_⟩
  · intro x hx
    have key : ∀ i, m.heLive i → (m.flipCore (eHalfedge e)).heLive (eHalfedge (heEdge i)) := by
      intro i hi
      rw [V.live]
      rcases heEdge_eq_iff.1 (rfl : heEdge i = heEdge i) with c | c
      · rw [← c]; exact hi
      · have := hv.twin_live _ hi
        rw [c, twin_twin] at this; exact this
    rw [V.neigh rfl] at hx
    have s := V.six
    simp only [List.mem_cons, List.not_mem_nil, or_false] at hx
    rcases hx with rfl | rfl | rfl | rfl
    · exact key _ s.lb3
    · exact key _ s.la2
    · exact key _ s.la3
    · exact key _ s.lb2
  · intro x hx
    have := V.ext _ (hv.twin_live _ hx)
    rw [← not_iff_not, not_bdy_iff, not_bdy_iff, this]

/-- Layout of the two triangles at an edge by the code. -/
theorem diamond_of (hv : m.Valid) (hM : m.Metric len) {e : ℕ} (he : m.heLive (eHalfedge e)) (hb : ¬ m.eIsBoundary e)
    {p0 p1 p2 p3 : V2} (hp : m.layoutDiamond len (eHalfedge e) = (p0, p1, p2, p3)) :
    pdist p0 p1 = len (heEdge (m.heNext (eHalfedge e))) ∧ pdist p1 p2 = len (heEdge (m.heNext (m.heNext (eHalfedge e)))) ∧
    pdist p2 p3 = len (heEdge (m.heNext (twin (eHalfedge e)))) ∧
    pdist p3 p0 = len (heEdge (m.heNext (m.heNext (twin (eHalfedge e))))) ∧ pdist p0 p2 = len e ∧
      0 < area2 p3 p0 p2 ∧ 0 < area2 p0 p1 p2 := by
  have tA := hM _ he (hv.edge_int e he)
  have tB := hM _ (hv.twin_live _ he) (not_bdy_iff.1 hb)
  rw [edge_a] at tA
  rw [edge_b] at tB
  have D := diamond_spec tA tB
  simp only [layoutDiamond, edge_a, Prod.mk.injEq] at hp
  obtain ⟨rfl, rfl, rfl, rfl⟩ := hp
  exact D

/-- A flip of a geometrically flippable edge keeps the invariant. -/
theorem euclidean_flip (hT : m.TriMetric len) {e : ℕ} (h : FlipOK m (eHalfedge e))
    {p0 p1 p2 p3 : V2} (hp : m.layoutDiamond len (eHalfedge e) = (p0, p1, p2, p3))
    (g0 : 0 < area2 p3 p0 p1) (g2 : 0 < area2 p3 p1 p2) {m1 : Mesh} {len1 : ℕ → ℝ}
    (hm : m1 = m.flipCore (eHalfedge e)) (hl : len1 = fun i => if i = e then pdist p1 p3 else len i) :
    m1.TriMetric len1 ∧ EuclideanFlip (m, len) (m1, len1) ∧
      (m1.edgeCotanWeight len1 e =
        cotw (pdist p1 p3) (pdist p3 p0) (pdist p0 p1) + cotw (pdist p1 p3) (pdist p1 p2) (pdist p2 p3)) := by
  obtain ⟨hv, ht, hM⟩ := hT
  have hb : ¬ m.eIsBoundary e := not_bdy_iff.2 h.int_b
  obtain ⟨d01, d12, d23, d30, d02, g3, g1⟩ := diamond_of hv hM h.live hb hp
  obtain ⟨hv1, lv, ex, -, bd⟩ := flip_frame hv h hm
  subst hm
  have V := flipView hv h
  have ho : ∀ i, i ≠ e → len1 i = len i := by intro i hi; rw [hl]; simp only [if_neg hi]
  have le : len1 e = pdist p1 p3 := by rw [hl]; simp only [if_true]
  have t0 := (triOK_of_points g0).1
  have t2 := (triOK_of_points g2).1
  have ht1 := V.triFaces ht
  have hM1 : (m.flipCore (eHalfedge e)).Metric len1 := by
    refine V.eachTri rfl ho (fun a b c h => h.rot) hM ?_ ?_
    · rw [le, ← d30, ← d01]; exact t0.rot.rot
    · rw [le, ← d12, ← d23, pdist_comm p1 p3]; exact t2
  refine ⟨⟨hv1, ht1, hM1⟩, ⟨e, h.live, flip_of_ok h, ho, ?_⟩, ?_⟩
  · exact ⟨p0, p1, p2, p3, d01, d12, d23, d30, d02, by simp only; rw [le], g3, g1, g0, g2⟩
  · have l1 := (lv _).2 h.live
    rw [weight_eq hv1 ht1 l1 (by rw [bd _ h.live]; exact hb), edge_a, edge_b]
    have F := V.arr
    have s := V.six
    have he : ∀ i, i ≠ eHalfedge e → i ≠ twin (eHalfedge e) → len1 (heEdge i) = len (heEdge i) := by
      intro i h1 h2
      refine ho _ fun c => ?_
      rcases heEdge_eq_iff.1 c with c | c
      · exact h1 c
      · exact h2 c
    rw [F.na1, F.nb3, F.nb1, F.na3, he _ s.x13.symm s.e13.symm, he _ s.d12.symm s.x21, he _ s.d13.symm s.x31,
      he _ s.x12.symm s.e12.symm, le, d30, d01, d12, d23]

/-- The weight of an edge away from the flipped one does not change. -/
theorem weight_far (hv : m.Valid) (ht : m.TriFaces) {e : ℕ} (h : FlipOK m (eHalfedge e)) {m1 : Mesh} {len1 : ℕ → ℝ}
    (hm : m1 = m.flipCore (eHalfedge e)) (ho : ∀ i, i ≠ e → len1 i = len i) {x : ℕ} (hx : m.heLive (eHalfedge x))
    (hb : ¬ m.eIsBoundary x) (hne : x ≠ e) (hn : x ∉ m1.neighEdges e) :
    m1.edgeCotanWeight len1 x = m.edgeCotanWeight len x := by
  obtain ⟨hv1, lv, ex, -, bd⟩ := flip_frame hv h hm
  subst hm
  have V := flipView hv h
  have ht1 := V.triFaces ht
  obtain ⟨q1, q2, q3⟩ := V.far rfl ho hx hne hn hx (edge_a x)
  obtain ⟨r1, r2, r3⟩ := V.far rfl ho hx hne hn (hv.twin_live _ hx) (edge_b x)
  rw [weight_eq hv1 ht1 ((lv _).2 hx) (by rw [bd x hx]; exact hb), weight_eq hv ht hx hb, q1, q2, q3, r1, r2, r3]

/-- One flip of an edge with negative weight. -/
theorem euclidean_step (hT : m.TriMetric len) {e : ℕ} (he : m.heLive (eHalfedge e)) (hb : ¬ m.eIsBoundary e)
    (hw : m.edgeCotanWeight len e < 0) :
    ∃ m1 len1, m.flipWith len e (m.euclideanFlipLen len (eHalfedge e)) = .ok (m1, len1, true) ∧ m1.TriMetric len1 ∧
      EuclideanFlip (m, len) (m1, len1) ∧ 0 < m1.edgeCotanWeight len1 e ∧ (∀ i, m1.heLive i ↔ m.heLive i) ∧
      (∀ i, m.heLive i → (m1.ext i ↔ m.ext i)) ∧
      (∀ x ∈ m1.neighEdges e, m1.heLive (eHalfedge x)) ∧
      (∀ x, m.heLive (eHalfedge x) → (m1.eIsBoundary x ↔ m.eIsBoundary x)) ∧
      (∀ x, m.heLive (eHalfedge x) → ¬ m.eIsBoundary x → x ≠ e → x ∉ m1.neighEdges e →
        m1.edgeCotanWeight len1 x = m.edgeCotanWeight len x) := by
  obtain ⟨hv, ht, hM⟩ := hT
  have h := flipOK_of_weight hv ht he hb hw
  obtain ⟨p0, p1, p2, p3, hp⟩ : ∃ p0 p1 p2 p3, m.layoutDiamond len (eHalfedge e) = (p0, p1, p2, p3) := ⟨_, _, _, _, rfl⟩
  obtain ⟨d01, d12, d23, d30, d02, g3, g1⟩ := diamond_of hv hM he hb hp
  rw [weight_eq hv ht he hb, edge_a, edge_b, ← d01, ← d12, ← d23, ← d30, ← d02] at hw
  obtain ⟨g0, g2, gw⟩ := flip_geometry g3 g1 hw
  obtain ⟨hT1, hR, hW⟩ := euclidean_flip ⟨hv, ht, hM⟩ h hp g0 g2 rfl rfl
  obtain ⟨-, lv, ex, nb, bd⟩ := flip_frame hv h rfl
  refine ⟨_, _, ?_, hT1, hR, by rw [hW]; exact gw, lv, ex, nb, bd, ?_⟩
  · rw [flipWith_ok h]
    unfold euclideanFlipLen
    rw [hp]; simp only [norm_sub]
  · intro x hx hbx hne hn
    exact weight_far hv ht h rfl (fun i hi => by simp only [if_neg hi]) hx hbx hne hn

/-- `good` for the simple Euclidean version. -/
theorem simpleEuclid_spec {eps : ℝ} (he : 0 ≤ eps) :
    StepSpec (simpleFlip .euclidean eps) (fun m len => m.TriMetric len ∧ ∀ i, m.heLive i → ¬ m.ext i) EuclideanFlip
      (fun m len e => -eps ≤ m.edgeCotanWeight len e) := by
  refine ⟨fun m len e hP hl => ?_⟩
  obtain ⟨hT, hc⟩ := hP
  have hv := hT.1
  have nb : ∀ x, m.heLive (eHalfedge x) → ¬ m.eIsBoundary x := fun x hx => not_bdy_iff.2 (hc _ (hv.twin_live _ hx))
  unfold simpleFlip shouldFlipEdge
  rw [if_neg (nb e hl), if_neg (nb e hl)]
  by_cases hw : m.edgeCotanWeight len e < -eps
  · right
    simp only [hw, decide_true, not_true, if_false]
    obtain ⟨m1, len1, h1, h2, h3, h4, h5, h6, h7, h8, h9⟩ := euclidean_step hT hl (nb e hl) (by linarith)
    refine ⟨m1, len1, h1, ⟨h2, fun i hi => ?_⟩, h3, by linarith, h5, h7, fun x hx hne hn hg => ?_⟩
    · have li := (h5 i).1 hi
      rw [h6 i li]; exact hc i li
    · rw [h9 x hx (nb x hx) hne hn]; exact hg
  · left
    simp only [hw, decide_false, Bool.false_eq_true, not_false_eq_true, if_true]
    exact ⟨trivial, by linarith⟩

/-- Fixed edges stay where they are. -/
def KeepsFixed (marked : ℕ → Bool) (s s' : Mesh × (ℕ → ℝ)) : Prop :=
  ∀ x, s.1.heLive (eHalfedge x) → s.1.isFixed marked x →
    s'.1.heLive (eHalfedge x) ∧ s'.1.isFixed marked x ∧ s'.2 x = s.2 x ∧
    s'.1.heVertex (eHalfedge x) = s.1.heVertex (eHalfedge x) ∧
    s'.1.heVertex (twin (eHalfedge x)) = s.1.heVertex (twin (eHalfedge x))

theorem signpost_spec (marked : ℕ → Bool) {eps : ℝ} (he : 0 < eps) :
    StepSpec (signpostFlip marked eps) TriMetric
      (fun s s' => EuclideanFlip s s' ∧ KeepsFixed marked s s')
      (fun m len e => m.isFixed marked e ∨ -eps < m.edgeCotanWeight len e) := by
  refine ⟨fun m len e hT hl => ?_⟩
  unfold signpostFlip
  by_cases hf : m.isFixed marked e
  · left; rw [if_pos hf]; exact ⟨rfl, Or.inl hf⟩
  rw [if_neg hf]
  unfold isFixed at hf
  push Not at hf
  obtain ⟨hb, hmk⟩ := hf
  by_cases hw : m.edgeCotanWeight len e > -eps
  · left; rw [if_pos hw]; exact ⟨rfl, Or.inr hw⟩
  right
  rw [if_neg hw]
  push Not at hw
  obtain ⟨m1, len1, h1, h2, h3, h4, h5, h6, h7, h8, h9⟩ := euclidean_step hT hl hb (by linarith)
  have h := flipOK_of_weight hT.1 hT.2.1 hl hb (by linarith : m.edgeCotanWeight len e < 0)
  have h1' := h1
  rw [flipWith_ok h] at h1'
  injection h1' with h1'
  have ho : ∀ i, i ≠ e → len1 i = len i := by
    have : len1 = _ := (congrArg (fun p : Mesh × (ℕ → ℝ) × Bool => p.2.1) h1').symm
    intro i hi; rw [this]; simp only [if_neg hi]
  have hm : m1 = m.flipCore (eHalfedge e) := (congrArg (fun p : Mesh × (ℕ → ℝ) × Bool => p.1) h1').symm
  refine ⟨m1, len1, h1, h2, ⟨h3, ?_⟩, Or.inr (by linarith), h5, h7, fun x hx hne hn hg => ?_⟩
  · intro x hx hfx
    have hne : x ≠ e := by rintro rfl; rcases hfx with c | c; exacts [hb c, hmk c]
    have V := (flipView hT.1 h).arr
    rw [← hm] at V
    have n1 : eHalfedge x ≠ eHalfedge e ∧ eHalfedge x ≠ twin (eHalfedge e) ∧
        twin (eHalfedge x) ≠ eHalfedge e ∧ twin (eHalfedge x) ≠ twin (eHalfedge e) := by
      refine ⟨fun c => hne ?_, fun c => hne ?_, fun c => hne ?_, fun c => hne ?_⟩
      · rw [← edge_a x, c, edge_a]
      · rw [← edge_a x, c, edge_b]
      · rw [← edge_b x, c, edge_a]
      · rw [← edge_b x, c, edge_b]
    refine ⟨(h5 _).2 hx, ?_, ho x hne, V.vo _ n1.1 n1.2.1, V.vo _ n1.2.2.1 n1.2.2.2⟩
    rcases hfx with c | c
    · exact Or.inl ((h8 x hx).2 c)
    · exact Or.inr c
  · rcases hg with (hg | hg) | hg
    · exact Or.inl (Or.inl ((h8 x hx).2 hg))
    · exact Or.inl (Or.inr hg)
    · by_cases hbx : m.eIsBoundary x
      · exact Or.inl (Or.inl ((h8 x hx).2 hbx))
      · right; rw [h9 x hx hbx hne hn]; exact hg

/-! ### Ptolemaic flips -/

/-- The score of one triangle, the code's formula. -/
noncomputable def hscore (a b c : ℝ) : ℝ := 0 - a / (b * c) + b / (c * a) + c / (a * b)

/-- Positive lengths. -/
def Pos3 (a b c : ℝ) : Prop := 0 < a ∧ 0 < b ∧ 0 < c

theorem hscore_eq {a b c : ℝ} (h : Pos3 a b c) : hscore a b c * (a * b * c) = b ^ 2 + c ^ 2 - a ^ 2 := by
  obtain ⟨h1, h2, h3⟩ := h
  unfold hscore
  field_simp
  ring

theorem score_eq (m : Mesh) (len : ℕ → ℝ) (e : ℕ) : m.hyperbolicScore len e =
    hscore (len (heEdge (eHalfedge e))) (len (heEdge (m.heNext (eHalfedge e)))) (len (heEdge (m.heNext (m.heNext (eHalfedge e))))) +
    hscore (len (heEdge (twin (eHalfedge e)))) (len (heEdge (m.heNext (twin (eHalfedge e)))))
        (len (heEdge (m.heNext (m.heNext (twin (eHalfedge e)))))) := rfl

theorem ptolemy_geometry {a b c d e : ℝ} (hA : Pos3 e a b) (hB : Pos3 e c d) (hs : hscore e a b + hscore e c d < 0) :
    let f := (a * c + b * d) / e
    Pos3 f d a ∧ Pos3 f b c ∧ 0 < hscore f d a + hscore f b c := by
  intro f
  obtain ⟨he, ha, hb⟩ := hA
  obtain ⟨-, hc, hd⟩ := hB
  have hf : 0 < f := by show 0 < (a * c + b * d) / e; positivity
  have hef : e * f = a * c + b * d := by show e * ((a * c + b * d) / e) = _; field_simp
  refine ⟨⟨hf, hd, ha⟩, ⟨hf, hb, hc⟩, ?_⟩
  have k1 := hscore_eq ⟨he, ha, hb⟩
  have k2 := hscore_eq ⟨he, hc, hd⟩
  have k3 := hscore_eq ⟨hf, hd, ha⟩
  have k4 := hscore_eq ⟨hf, hb, hc⟩
  have h1 : (a * c + b * d) * (a * d + b * c) - e ^ 2 * (a * b + c * d) < 0 := by
    have h2 : (hscore e a b + hscore e c d) * (e * a * b * c * d) < 0 :=
      mul_neg_of_neg_of_pos hs (by positivity)
    have h3 : (hscore e a b + hscore e c d) * (e * a * b * c * d) =
        (a * c + b * d) * (a * d + b * c) - e ^ 2 * (a * b + c * d) := by
      linear_combination (c * d) * k1 + (a * b) * k2
    rwa [h3] at h2
  have h5 : (hscore f d a + hscore f b c) * (f * a * b * c * d) =
      (a * c + b * d) * (a * b + c * d) - f ^ 2 * (a * d + b * c) := by
    linear_combination (b * c) * k3 + (a * d) * k4
  have h6 : 0 < ((a * c + b * d) * (a * b + c * d) - f ^ 2 * (a * d + b * c)) * e ^ 2 := by
    have : ((a * c + b * d) * (a * b + c * d) - f ^ 2 * (a * d + b * c)) * e ^ 2 =
        - ((a * c + b * d) * ((a * c + b * d) * (a * d + b * c) - e ^ 2 * (a * b + c * d))) := by
      have : f ^ 2 * e ^ 2 = (a * c + b * d) ^ 2 := by rw [← hef]; ring
      linear_combination (-(a * d + b * c)) * this
    rw [this]
    have : (a * c + b * d) * ((a * c + b * d) * (a * d + b * c) - e ^ 2 * (a * b + c * d)) < 0 :=
      mul_neg_of_pos_of_neg (by positivity) h1
    linarith
  have h7 : 0 < (hscore f d a + hscore f b c) * (f * a * b * c * d) := by
    rw [h5]; exact (pos_iff_pos_of_mul_pos h6).2 (by positivity)
  exact (pos_iff_pos_of_mul_pos h7).2 (by positivity)

theorem hscore_iso {a b : ℝ} (ha : 0 < a) (hb : 0 < b) : 0 < hscore a a b ∧ 0 < hscore a b a := by
  constructor
  · refine (pos_iff_pos_of_mul_pos (b := a * a * b) ?_).2 (by positivity)
    rw [hscore_eq ⟨ha, ha, hb⟩]; nlinarith
  · refine (pos_iff_pos_of_mul_pos (b := a * b * a) ?_).2 (by positivity)
    rw [hscore_eq ⟨ha, hb, ha⟩]; nlinarith

/-- The invariant of a Ptolemaic run: a closed triangle mesh with positive lengths. -/
def TriPos (m : Mesh) (len : ℕ → ℝ) : Prop :=
  m.Valid ∧ m.TriFaces ∧ m.EachTri len Pos3 ∧ ∀ i, m.heLive i → ¬ m.ext i

theorem simpleHyper_spec {eps : ℝ} (he : 0 ≤ eps) :
    StepSpec (simpleFlip .hyperbolic eps) TriPos PtolemaicFlip (fun m len e => -eps ≤ m.hyperbolicScore len e) := by
  refine ⟨fun m len e hP hl => ?_⟩
  obtain ⟨hv, ht, hM, hc⟩ := hP
  have nb : ∀ x, m.heLive (eHalfedge x) → ¬ m.eIsBoundary x := fun x hx => not_bdy_iff.2 (hc _ (hv.twin_live _ hx))
  unfold simpleFlip shouldFlipEdge
  rw [if_neg (nb e hl), if_neg (nb e hl)]
  by_cases hw : m.hyperbolicScore len e < -eps
  · right
    simp only [hw, decide_true, not_true, if_false]
    have lb := hv.twin_live _ hl
    have xa := hc _ hl
    have xb := hc _ lb
    have ta := ht _ hl xa
    have tb := ht _ lb xb
    have pA := hM _ hl xa
    have pB := hM _ lb xb
    rw [score_eq, edge_a, edge_b] at hw
    rw [edge_a] at pA
    rw [edge_b] at pB
    have h : FlipOK m (eHalfedge e) := by
      refine ⟨hl, xa, xb, ta, tb, fun c => ?_, fun c => ?_⟩
      · have c2 : m.heNext (m.heNext (twin (eHalfedge e))) = eHalfedge e := by rw [← c]; exact ta
        rw [c2, edge_a, c, edge_b] at hw
        obtain ⟨k1, k2⟩ := hscore_iso pA.1 pB.2.1
        linarith
      · have c2 : m.heNext (m.heNext (eHalfedge e)) = twin (eHalfedge e) := by
          have := tb; rw [c] at this; exact this
        rw [c, c2, edge_a, edge_b] at hw
        obtain ⟨k1, k2⟩ := hscore_iso pA.1 pA.2.1
        linarith
    obtain ⟨f1, f2, f3⟩ := ptolemy_geometry pA pB (by linarith)
    have hlen : m.hyperbolicFlipLen len (eHalfedge e) =
        (len (heEdge (m.heNext (eHalfedge e))) * len (heEdge (m.heNext (twin (eHalfedge e)))) +
          len (heEdge (m.heNext (m.heNext (eHalfedge e)))) * len (heEdge (m.heNext (m.heNext (twin (eHalfedge e)))))) /
          len e := by
      simp only [hyperbolicFlipLen, edge_a]
    rw [← hlen] at f1 f2 f3
    set l := m.hyperbolicFlipLen len (eHalfedge e) with hl'
    obtain ⟨hv1, lv, ex, nbl, bd⟩ := flip_frame hv h rfl
    have V := flipView hv h
    have hfw := flipWith_ok (len := len) h l
    generalize hg : (fun i => if i = e then l else len i) = len1 at hfw
    have ho : ∀ i, i ≠ e → len1 i = len i := by intro i hi; rw [← hg]; simp only [if_neg hi]
    have le : len1 e = l := by rw [← hg]; simp only [if_true]
    have ht1 := V.triFaces ht
    have hM1 : (m.flipCore (eHalfedge e)).EachTri len1 Pos3 := by
      refine V.eachTri rfl ho (fun a b c h => ⟨h.2.1, h.2.2, h.1⟩) hM ?_ ?_
      · rw [le]; exact f1
      · rw [le]; exact f2
    refine ⟨_, _, hfw, ⟨hv1, ht1, hM1, fun i hi => ?_⟩, ⟨e, hl, flip_of_ok h, ho, ?_⟩, ?_, lv, nbl, ?_⟩
    · have li := (lv i).1 hi
      rw [ex i li]; exact hc i li
    · simp only
      rw [le, hlen, div_mul_cancel₀ _ pA.1.ne']
    · have F := V.arr
      have s := V.six
      have hh : ∀ i, i ≠ eHalfedge e → i ≠ twin (eHalfedge e) →
          len1 (heEdge i) = len (heEdge i) := by
        intro i h1 h2
        refine ho _ fun c => ?_
        rcases heEdge_eq_iff.1 c with c | c
        · exact h1 c
        · exact h2 c
      rw [score_eq, edge_a, edge_b, F.na1, F.nb3, F.nb1, F.na3, hh _ s.x13.symm s.e13.symm, hh _ s.d12.symm s.x21,
        hh _ s.d13.symm s.x31, hh _ s.x12.symm s.e12.symm, le]
      linarith
    · intro x hx hne hn hg
      obtain ⟨q1, q2, q3⟩ := V.far rfl ho hx hne hn hx (edge_a x)
      obtain ⟨r1, r2, r3⟩ := V.far rfl ho hx hne hn (hv.twin_live _ hx) (edge_b x)
      rw [score_eq, q1, q2, q3, r1, r2, r3]
      exact hg
  · left
    simp only [hw, decide_false, Bool.false_eq_true, not_false_eq_true, if_true]
    exact ⟨trivial, by linarith⟩

/-- If every edge passes the ideal Delaunay test, the lengths satisfy the strict triangle inequality. -/
theorem metric_of_score (hP : m.TriPos len) (hg : ∀ x, m.heLive (eHalfedge x) → 0 ≤ m.hyperbolicScore len x) :
    m.Metric len := by
  obtain ⟨hv, ht, hM, hc⟩ := hP
  -- score of both sides of any halfedge
  have sc : ∀ i, m.heLive i →
      0 ≤ hscore (len (heEdge i)) (len (heEdge (m.heNext i))) (len (heEdge (m.heNext (m.heNext i)))) +
        hscore (len (heEdge (twin i))) (len (heEdge (m.heNext (twin i)))) (len (heEdge (m.heNext (m.heNext (twin i))))) := by
    intro i hi
    rcases heEdge_eq_iff.1 (rfl : heEdge i = heEdge i) with c | c
    · have := hg (heEdge i) (by rw [← c]; exact hi)
      rw [score_eq, ← c] at this
      exact this
    · have c' : eHalfedge (heEdge i) = twin i := by
        have := congrArg twin c; rw [twin_twin] at this; exact this.symm
      have := hg (heEdge i) (by rw [c']; exact hv.twin_live _ hi)
      rw [score_eq, c', twin_twin] at this
      linarith
  have tw : ∀ i, heEdge (twin i) = heEdge i := by
    intro i
    rcases heEdge_eq_iff.1 (rfl : heEdge i = heEdge i) with c | c
    · exact heEdge_eq_iff.2 (Or.inr (congrArg twin c))
    · refine heEdge_eq_iff.2 (Or.inl ?_)
      have := congrArg twin c; rw [twin_twin] at this; exact this
  -- an edge violating the inequality in one triangle is shorter than another such edge
  let bad : ℕ → Prop := fun i => m.heLive i ∧
    len (heEdge (m.heNext i)) + len (heEdge (m.heNext (m.heNext i))) ≤ len (heEdge i)
  have step : ∀ i, bad i → ∃ j, bad j ∧ len (heEdge i) < len (heEdge j) := by
    rintro i ⟨hi, hle⟩
    have s := sc i hi
    have li := hv.twin_live _ hi
    have p1 := hM i hi (hc i hi)
    have p2 := hM _ li (hc _ li)
    have k1 := hscore_eq p1
    have k2 := hscore_eq p2
    rw [tw] at p2 k2 s
    set a := len (heEdge i) with ha
    set b := len (heEdge (m.heNext i))
    set c := len (heEdge (m.heNext (m.heNext i)))
    set d := len (heEdge (m.heNext (twin i))) with hd
    set f := len (heEdge (m.heNext (m.heNext (twin i)))) with hf
    obtain ⟨pa, pb, pc⟩ := p1
    obtain ⟨-, pd, pf⟩ := p2
    have u1 : hscore a b c * a ≤ -2 := by
      have h1 : (hscore a b c * a) * (b * c) ≤ -2 * (b * c) := by
        have : (hscore a b c * a) * (b * c) = b ^ 2 + c ^ 2 - a ^ 2 := by rw [← k1]; ring
        rw [this]; nlinarith
      exact le_of_mul_le_mul_right h1 (by positivity)
    have u2 : 2 ≤ hscore a d f * a := by
      have : 0 ≤ (hscore a b c + hscore a d f) * a := mul_nonneg s pa.le
      linarith
    have u3 : a ^ 2 ≤ (d - f) ^ 2 := by
      have h1 : 2 * (d * f) ≤ (hscore a d f * a) * (d * f) := mul_le_mul_of_nonneg_right u2 (by positivity)
      have : (hscore a d f * a) * (d * f) = d ^ 2 + f ^ 2 - a ^ 2 := by rw [← k2]; ring
      rw [this] at h1; linarith
    have u4 : a ≤ |d - f| := by
      exact (le_abs_self a).trans (sq_le_sq.1 u3)
    have t := ht _ li (hc _ li)
    have l2 := hv.next_live _ li
    have l3 := hv.next_live _ l2
    rcases le_total f d with h | h
    · rw [abs_of_nonneg (by linarith)] at u4
      refine ⟨m.heNext (twin i), ⟨l2, ?_⟩, by linarith⟩
      rw [t, tw]; linarith
    · rw [abs_of_nonpos (by linarith)] at u4
      refine ⟨m.heNext (m.heNext (twin i)), ⟨l3, ?_⟩, by linarith⟩
      rw [t, tw]; linarith
  have none : ∀ i, ¬ bad i := by
    intro i0 h0
    obtain ⟨i, hi, hmax⟩ := ((Finset.range m.nHeFill).filter (fun i => bad i)).exists_max_image
      (fun i => len (heEdge i)) ⟨i0, Finset.mem_filter.2 ⟨Finset.mem_range.2 h0.1.1, h0⟩⟩
    obtain ⟨j, hj, hlt⟩ := step i (Finset.mem_filter.1 hi).2
    have := hmax j (Finset.mem_filter.2 ⟨Finset.mem_range.2 hj.1.1, hj⟩)
    linarith
  intro i hi hx
  have p := hM i hi hx
  have t := ht i hi hx
  have l2 := hv.next_live _ hi
  have l3 := hv.next_live _ l2
  have n1 := none i; have n2 := none (m.heNext i); have n3 := none (m.heNext (m.heNext i))
  simp only [bad, not_and, not_le] at n1 n2 n3
  have n1 := n1 hi; have n2 := n2 l2; have n3 := n3 l3
  rw [t] at n2 n3
  exact ⟨p.1, p.2.1, p.2.2, n1, n2, n3⟩

/-! ### The theorems -/

theorem flip_counts {e : ℕ} {m' : Mesh} {b : Bool} (h : m.flip e false = .ok (m', b)) :
    m'.nV = m.nV ∧ m'.nE = m.nE ∧ m'.nF = m.nF ∧ m'.nHe = m.nHe ∧ m'.nBL = m.nBL := by
  unfold flip at h
  simp only [Bool.false_eq_true, if_false] at h
  split_ifs at h <;> (injection h with h; injection h with h _; subst h; exact ⟨rfl, rfl, rfl, rfl, rfl⟩)

/-- The counts along a chain of flips. -/
theorem chain_counts {R : Mesh × (ℕ → ℝ) → Mesh × (ℕ → ℝ) → Prop}
    (hR : ∀ s s', R s s' → ∃ e, s.1.flip e false = .ok (s'.1, true)) {k : ℕ} {s s' : Mesh × (ℕ → ℝ)}
    (h : Chain R k s s') : s'.1.nV = s.1.nV ∧ s'.1.nE = s.1.nE ∧ s'.1.nF = s.1.nF ∧ s'.1.nHe = s.1.nHe ∧
      s'.1.nBL = s.1.nBL := by
  induction h with
  | nil => exact ⟨rfl, rfl, rfl, rfl, rfl⟩
  | cons h1 _ ih =>
    obtain ⟨e, he⟩ := hR _ _ h1
    obtain ⟨c1, c2, c3, c4, c5⟩ := flip_counts he
    obtain ⟨d1, d2, d3, d4, d5⟩ := ih
    exact ⟨d1.trans c1, d2.trans c2, d3.trans c3, d4.trans c4, d5.trans c5⟩

/-- **C60 (Euclidean), partial.** On a closed triangle mesh with nondegenerate triangles, `flipToDelaunay` does not
throw or access memory out of range. If it returns, then after `k` (the returned number) Euclidean flips the mesh is a
valid triangle mesh with the same numbers of elements and nondegenerate triangles, and every edge is Delaunay:
the mean of the cotangents of its opposite angles is at least `-eps`; with `eps = 0` the angles add up to at most `π`.
Missing: that the loop ends, and meshes with boundary, where the statement is false (`C60_boundary_throws`). -/
theorem C60_euclidean_partial (fuel : ℕ) (m : Mesh) (hv : m.Valid) (ht : m.TriFaces) (hc : ∀ i, m.heLive i → ¬ m.ext i)
    (len : ℕ → ℝ) (hM : m.Metric len) (eps : ℝ) (he : 0 ≤ eps) :
    flipToDelaunay fuel m len .euclidean eps = .error .hang ∨
    ∃ m' len' k, flipToDelaunay fuel m len .euclidean eps = .ok (m', len', k) ∧
      m'.Valid ∧ m'.TriFaces ∧ m'.Metric len' ∧ Chain EuclideanFlip k (m, len) (m', len') ∧
      (m'.nV = m.nV ∧ m'.nE = m.nE ∧ m'.nF = m.nF ∧ m'.nHe = m.nHe ∧ m'.nBL = m.nBL) ∧
      (∀ i, m'.heLive i ↔ m.heLive i) ∧
      ∀ e, m'.heLive (eHalfedge e) → -eps ≤ m'.cotSum len' e ∧ (eps = 0 → m'.angleSum len' e ≤ Real.pi) := by
  rcases delaunayRun_spec (simpleEuclid_spec he) fuel m hv len ⟨⟨hv, ht, hM⟩, hc⟩ with h | ⟨m', len', k, h, hP, hC, hl, hg⟩
  · exact Or.inl h
  · obtain ⟨⟨hv', ht', hM'⟩, hc'⟩ := hP
    refine Or.inr ⟨m', len', k, h, hv', ht', hM', hC, chain_counts (fun s s' ⟨e, _, h, _⟩ => ⟨e, h⟩) hC, hl, fun e hl => ?_⟩
    have nb : ¬ m'.eIsBoundary e := not_bdy_iff.2 (hc' _ (hv'.twin_live _ hl))
    have := hg e hl
    rw [weight_eq_cotSum hv' ht' hM' hl nb] at this
    refine ⟨this, fun h0 => ?_⟩
    rw [h0] at this
    refine angle_sum_le (oppAngle_pos (hM' _ hl (hc' _ hl)))
      (oppAngle_pos (hM' _ (hv'.twin_live _ hl) (hc' _ (hv'.twin_live _ hl)))) ?_
    unfold cotSum at this
    simp only at this
    linarith

/-- **C60 (Ptolemaic), partial.** The same for `FlipType::Hyperbolic` and positive lengths; with `eps = 0` the resulting
lengths satisfy the strict triangle inequality in every face, which the callers rely on, even if the given ones do not. -/
theorem C60_hyperbolic_partial (fuel : ℕ) (m : Mesh) (hv : m.Valid) (ht : m.TriFaces) (hc : ∀ i, m.heLive i → ¬ m.ext i)
    (len : ℕ → ℝ) (hM : ∀ e, m.heLive (eHalfedge e) → 0 < len e) (eps : ℝ) (he : 0 ≤ eps) :
    flipToDelaunay fuel m len .hyperbolic eps = .error .hang ∨
    ∃ m' len' k, flipToDelaunay fuel m len .hyperbolic eps = .ok (m', len', k) ∧
      m'.Valid ∧ m'.TriFaces ∧ (∀ e, m'.heLive (eHalfedge e) → 0 < len' e) ∧ Chain PtolemaicFlip k (m, len) (m', len') ∧
      (m'.nV = m.nV ∧ m'.nE = m.nE ∧ m'.nF = m.nF ∧ m'.nHe = m.nHe ∧ m'.nBL = m.nBL) ∧
      (∀ i, m'.heLive i ↔ m.heLive i) ∧
      (∀ e, m'.heLive (eHalfedge e) →
        let t := fun i => (len' (heEdge (m'.heNext i)) ^ 2 + len' (heEdge (m'.heNext (m'.heNext i))) ^ 2 - len' e ^ 2) /
          (len' e * len' (heEdge (m'.heNext i)) * len' (heEdge (m'.heNext (m'.heNext i))))
        t (eHalfedge e) + t (twin (eHalfedge e)) ≥ -eps) ∧
      (eps = 0 → m'.Metric len') := by
  have live_edge : ∀ {m : Mesh}, m.Valid → ∀ i, m.heLive i → m.heLive (eHalfedge (heEdge i)) := by
    intro m hv i hi
    rcases heEdge_eq_iff.1 (rfl : heEdge i = heEdge i) with c | c
    · rw [← c]; exact hi
    · have := hv.twin_live _ hi
      rw [c, twin_twin] at this; exact this
  have hP : m.TriPos len := ⟨hv, ht, fun i hi _ => ⟨hM _ (live_edge hv _ hi), hM _ (live_edge hv _ (hv.next_live _ hi)),
    hM _ (live_edge hv _ (hv.next_live _ (hv.next_live _ hi)))⟩, hc⟩
  rcases delaunayRun_spec (simpleHyper_spec he) fuel m hv len hP with h | ⟨m', len', k, h, hP, hC, hl, hg⟩
  · exact Or.inl h
  · have hP' := hP
    obtain ⟨hv', ht', hM', hc'⟩ := hP
    refine Or.inr ⟨m', len', k, h, hv', ht', ?_, hC, chain_counts (fun s s' ⟨e, _, h, _⟩ => ⟨e, h⟩) hC, hl, ?_, ?_⟩
    · intro e hl
      have := (hM' _ hl (hc' _ hl)).1
      rwa [edge_a] at this
    · intro e hl
      have lb := hv'.twin_live _ hl
      have := hg e hl
      have q1 := hM' _ hl (hc' _ hl)
      have q2 := hM' _ lb (hc' _ lb)
      have k1 := hscore_eq q1
      have k2 := hscore_eq q2
      rw [score_eq] at this
      rw [edge_a] at this q1 k1
      rw [edge_b] at this q2 k2
      have z1 := (eq_div_iff (mul_pos (mul_pos q1.1 q1.2.1) q1.2.2).ne').2 k1
      have z2 := (eq_div_iff (mul_pos (mul_pos q2.1 q2.2.1) q2.2.2).ne').2 k2
      simp only
      rw [← z1, ← z2]
      exact this
    · intro h0
      refine metric_of_score hP' fun x hx => ?_
      have := hg x hx; rw [h0] at this; linarith

/-- A loop over edges none of which is flipped ends and changes nothing. -/
theorem delaunayLoop_noop {step : Mesh → (ℕ → ℝ) → ℕ → FlipRes} : ∀ (q : List ℕ) (inQ : ℕ → Bool) (n k : ℕ),
    (∀ x ∈ q, step m len x = .ok (m, len, false)) → q.length < n →
    delaunayLoop step n m len q inQ k = .ok (m, len, k) := by
  intro q
  induction q with
  | nil =>
    intro inQ n k _ hn
    obtain ⟨n, rfl⟩ : ∃ n', n = n' + 1 := ⟨n - 1, by simp at hn; omega⟩
    rfl
  | cons e q ih =>
    intro inQ n k h hn
    obtain ⟨n, rfl⟩ : ∃ n', n = n' + 1 := ⟨n - 1, by simp at hn; omega⟩
    simp only [delaunayLoop, h e (by simp)]
    exact ih _ n k (fun x hx => h x (List.mem_cons_of_mem _ hx)) (by simp at hn; omega)

/-- **C60 (fixed point).** A triangulation all of whose edges are Delaunay is returned unchanged, after one look at
every edge. -/
theorem C60_noop (m : Mesh) (hv : m.Valid) (ht : m.TriFaces) (hc : ∀ i, m.heLive i → ¬ m.ext i)
    (len : ℕ → ℝ) (hM : m.Metric len) (eps : ℝ) (hd : ∀ e, m.heLive (eHalfedge e) → -eps ≤ m.cotSum len e)
    (fuel : ℕ) (hf : m.nE < fuel) : flipToDelaunay fuel m len .euclidean eps = .ok (m, len, 0) := by
  obtain ⟨-, -, -, -, ⟨l, hl, ⟨-, hmem⟩, hlen⟩, -⟩ := C16_ranges m hv
  simp only [flipToDelaunay, delaunayRun, hl]
  refine delaunayLoop_noop l _ fuel 0 (fun x hx => ?_) (by omega)
  have lx : m.heLive (eHalfedge x) := (hmem x).1 hx
  have nb : ¬ m.eIsBoundary x := not_bdy_iff.2 (hc _ (hv.twin_live _ lx))
  have := hd x lx
  rw [← weight_eq_cotSum hv ht hM lx nb] at this
  unfold simpleFlip shouldFlipEdge
  rw [if_neg nb, if_neg nb]
  have : ¬ m.edgeCotanWeight len x < -eps := by linarith
  simp [this]

theorem flip_valid_ext (hv : m.Valid) {e : ℕ} (he : m.heLive (eHalfedge e)) {m' : Mesh} {b : Bool}
    (h : m.flip e false = .ok (m', b)) {x : ℕ} (hx : m.heLive (eHalfedge x)) (hb : m.eIsBoundary x) :
    m'.Valid ∧ (∀ i, m'.heLive i ↔ m.heLive i) ∧ m'.eIsBoundary x ∧ (∀ y ∈ m'.neighEdges e, m'.heLive (eHalfedge y)) := by
  have key : ∀ i, m.heLive i → m.heLive (eHalfedge (heEdge i)) := by
    intro i hi
    rcases heEdge_eq_iff.1 (rfl : heEdge i = heEdge i) with c | c
    · rw [← c]; exact hi
    · have := hv.twin_live _ hi
      rw [c, twin_twin] at this; exact this
  rcases flip_cases hv he false with h' | ⟨h', hok, -⟩
  · rw [h'] at h
    injection h with h; injection h with h _; subst h
    refine ⟨hv, fun _ => Iff.rfl, hb, fun y hy => ?_⟩
    unfold neighEdges at hy
    simp only [List.mem_cons, List.not_mem_nil, or_false] at hy
    rcases hy with rfl | rfl | rfl | rfl
    · exact key _ (hv.next_live _ he)
    · exact key _ (hv.next_live _ (hv.next_live _ he))
    · exact key _ (hv.next_live _ (hv.twin_live _ he))
    · exact key _ (hv.next_live _ (hv.next_live _ (hv.twin_live _ he)))
  · rw [h'] at h
    injection h with h; injection h with h _; subst h
    obtain ⟨hv1, lv, -, nl, bd⟩ := flip_frame hv hok rfl
    exact ⟨hv1, lv, (bd x hx).2 hb, nl⟩

theorem loop_boundary {t : FlipType} {eps : ℝ} {x : ℕ} : ∀ (n : ℕ) (m : Mesh) (len : ℕ → ℝ) (q : List ℕ)
    (inQ : ℕ → Bool) (k : ℕ), m.Valid → (∀ y ∈ q, m.heLive (eHalfedge y)) → m.heLive (eHalfedge x) → m.eIsBoundary x →
    x ∈ q → delaunayLoop (simpleFlip t eps) n m len q inQ k = .error .hang ∨
      delaunayLoop (simpleFlip t eps) n m len q inQ k = .error .throw := by
  intro n
  induction n with
  | zero => intro m len q inQ k _ _ _ _ _; exact Or.inl rfl
  | succ n ih =>
    intro m len q inQ k hv hq hx hb hmem
    cases q with
    | nil => simp at hmem
    | cons e q =>
      have le := hq e (by simp)
      have hq' : ∀ y ∈ q, m.heLive (eHalfedge y) := fun y hy => hq y (List.mem_cons_of_mem _ hy)
      by_cases hbe : m.eIsBoundary e
      · right
        have : simpleFlip t eps m len e = .error .throw := by unfold simpleFlip; rw [if_pos hbe]
        simp only [delaunayLoop, this]
      · have hxq : x ∈ q := by
          rcases List.mem_cons.1 hmem with rfl | h
          · exact absurd hb hbe
          · exact h
        by_cases hs : m.shouldFlipEdge len t eps e = true
        · obtain ⟨l, hl⟩ : ∃ l, simpleFlip t eps m len e = m.flipWith len e l := by
            unfold simpleFlip
            rw [if_neg hbe, if_neg (not_not.2 hs)]
            exact ⟨_, rfl⟩
          obtain ⟨m', b, hf, -⟩ := C01_flip_valid m hv e le false
          obtain ⟨v1, v2, v3, v4⟩ := flip_valid_ext hv le hf hx hb
          cases b with
          | false =>
            have : simpleFlip t eps m len e = .ok (m', len, false) := by rw [hl]; unfold flipWith; rw [hf]
            simp only [delaunayLoop, this]
            exact ih m' len q _ k v1 (fun y hy => (v2 _).2 (hq' y hy)) ((v2 _).2 hx) v3 hxq
          | true =>
            have : simpleFlip t eps m len e = .ok (m', (fun i => if i = e then l else len i), true) := by
              rw [hl]; unfold flipWith; rw [hf]
            simp only [delaunayLoop, this]
            obtain ⟨p1, p2, p3, p4⟩ := pushEdges_spec (m'.neighEdges e) q (fun i => if i = e then false else inQ i)
            refine ih m' _ _ _ (k + 1) v1 (fun y hy => ?_) ((v2 _).2 hx) v3 (p3 x hxq)
            rcases p2 y hy with h | h
            · exact (v2 _).2 (hq' y h)
            · exact v4 y h
        · have : simpleFlip t eps m len e = .ok (m, len, false) := by
            unfold simpleFlip; rw [if_neg hbe, if_pos hs]
          simp only [delaunayLoop, this]
          exact ih m len q _ k hv hq' hx hb hxq

theorem triOK_of_bounds {a b c : ℝ} (ha : 2 ≤ a ∧ a ≤ 3) (hb : 2 ≤ b ∧ b ≤ 3) (hc : 2 ≤ c ∧ c ≤ 3) : TriOK a b c := by
  constructor <;> linarith [ha.1, ha.2, hb.1, hb.2, hc.1, hc.2]

theorem closed_of {m : Mesh} (h : ∀ i < m.nHeFill, ¬ (m.heLive i ∧ m.ext i)) : ∀ i, m.heLive i → ¬ m.ext i :=
  fun i hi hx => h i hi.1 ⟨hi, hx⟩

theorem triFaces_of {m : Mesh} (h : ∀ i < m.nHeFill, m.heLive i → ¬ m.ext i → m.heNext (m.heNext (m.heNext i)) = i) :
    m.TriFaces := fun i hi hx => h i hi.1 hi hx

/-- Two obtuse triangles with sides 3, 2, 2 glued to a pillow: the hypotheses of `C60_euclidean_partial` hold, and the
long edge is not Delaunay, so there is something to flip. -/
example : ∃ len : ℕ → ℝ, pillow.Valid ∧ pillow.TriFaces ∧ (∀ i, pillow.heLive i → ¬ pillow.ext i) ∧ pillow.Metric len ∧
    pillow.heLive (eHalfedge 0) ∧ pillow.cotSum len 0 < 0 := by
  refine ⟨fun e => if e = 0 then 3 else 2, pillow_valid, triFaces_of (by decide +kernel), closed_of (by decide +kernel), ?_,
    by decide +kernel, ?_⟩
  · intro i _ _
    refine triOK_of_bounds ?_ ?_ ?_ <;> beta_reduce <;> split_ifs <;> norm_num
  · have ht : pillow.TriFaces := triFaces_of (by decide +kernel)
    have l0 : pillow.heLive (eHalfedge 0) := by decide +kernel
    have nb : ¬ pillow.eIsBoundary 0 := by decide +kernel
    have hM : pillow.Metric (fun e => if e = 0 then 3 else 2) := by
      intro i _ _
      refine triOK_of_bounds ?_ ?_ ?_ <;> beta_reduce <;> split_ifs <;> norm_num
    rw [← weight_eq_cotSum pillow_valid ht hM l0 nb, weight_eq pillow_valid ht l0 nb]
    have e1 : heEdge (eHalfedge 0) = 0 ∧ heEdge (twin (eHalfedge 0)) = 0 ∧ heEdge (pillow.heNext (eHalfedge 0)) ≠ 0 ∧
      heEdge (pillow.heNext (pillow.heNext (eHalfedge 0))) ≠ 0 ∧ heEdge (pillow.heNext (twin (eHalfedge 0))) ≠ 0 ∧
      heEdge (pillow.heNext (pillow.heNext (twin (eHalfedge 0)))) ≠ 0 := by decide +kernel
    obtain ⟨f1, f2, f3, f4, f5, f6⟩ := e1
    simp only [f1, f2, f3, f4, f5, f6, if_true, if_false]
    have hA : 0 < triangleArea 3 2 2 := (triOK_of_bounds (by norm_num) (by norm_num) (by norm_num)).area_pos
    have : cotw 3 2 2 < 0 := by
      unfold cotw
      refine div_neg_of_neg_of_pos (div_neg_of_neg_of_pos (by norm_num) (by positivity)) (by norm_num)
    linarith

/-- The regular tetrahedron is Delaunay: nothing is flipped. -/
example : flipToDelaunay 7 tetra (fun _ => 1) .euclidean 0 = .ok (tetra, fun _ => 1, 0) := by
  have ht : tetra.TriFaces := triFaces_of (by decide +kernel)
  have hc : ∀ i, tetra.heLive i → ¬ tetra.ext i := closed_of (by decide +kernel)
  have hM : tetra.Metric (fun _ => 1) := by intro i _ _; constructor <;> norm_num
  refine C60_noop tetra tetra_valid ht hc _ hM 0 (fun e he => ?_) 7 (by decide +kernel)
  have nb : ¬ tetra.eIsBoundary e := not_bdy_iff.2 (hc _ (tetra_valid.twin_live _ he))
  rw [← weight_eq_cotSum tetra_valid ht hM he nb, weight_eq tetra_valid ht he nb]
  have := (cotw_iso (a := 1) (b := 1)).1
  linarith

/-- **C60 fails on every mesh with boundary**, for all lengths, both types and all `eps`: `flipToDelaunay` never
returns, it throws when it comes to a boundary edge (or loops forever before). -/
theorem C60_boundary_throws (fuel : ℕ) (m : Mesh) (hv : m.Valid) (len : ℕ → ℝ) (t : FlipType) (eps : ℝ)
    (hb : ∃ i, m.heLive i ∧ m.ext i) :
    flipToDelaunay fuel m len t eps = .error .hang ∨ flipToDelaunay fuel m len t eps = .error .throw := by
  obtain ⟨i, hi, hx⟩ := hb
  obtain ⟨-, -, -, -, ⟨l, hl, ⟨-, hmem⟩, -⟩, -⟩ := C16_ranges m hv
  have hi2 : i = twin (eHalfedge (heEdge i)) := by
    rcases heEdge_eq_iff.1 (rfl : heEdge i = heEdge i) with c | c
    · exfalso
      have := hv.edge_int (heEdge i) (by rw [← c]; exact hi)
      rw [← c] at this; exact this hx
    · exact c
  have lx : m.heLive (eHalfedge (heEdge i)) := by
    have := hv.twin_live _ hi
    rw [hi2, twin_twin] at this; exact this
  have hb : m.eIsBoundary (heEdge i) := by
    by_contra h
    have := not_bdy_iff.1 h
    rw [← hi2] at this; exact this hx
  simp only [flipToDelaunay, delaunayRun, hl]
  exact loop_boundary fuel m len l _ 0 hv (fun y hy => (hmem y).1 hy) lx hb ((hmem _).2 lx)

/-- The full statement of C60: some number of rounds suffices, and the result is Delaunay. It is false: the square has a
boundary. -/
theorem C60_statement_fails : ¬ ∀ (m : Mesh) (len : ℕ → ℝ), m.Valid → m.TriFaces → m.Metric len →
    ∃ fuel m' len' k, flipToDelaunay fuel m len .euclidean 0 = .ok (m', len', k) ∧
      ∀ e, m'.heLive (eHalfedge e) → ¬ m'.eIsBoundary e → m'.angleSum len' e ≤ Real.pi := by
  intro h
  obtain ⟨fuel, m', len', k, h1, -⟩ := h square (fun _ => 2) square_valid (triFaces_of (by decide +kernel))
    (fun i _ _ => triOK_of_bounds (by norm_num) (by norm_num) (by norm_num))
  rcases C60_boundary_throws fuel square square_valid (fun _ => 2) .euclidean 0 ⟨1, by decide +kernel, by decide +kernel⟩
    with h2 | h2 <;> rw [h1] at h2 <;> cases h2

/-- **C61.** `IntrinsicTriangulation::flipToDelaunay` on signposts, boundary and marked edges allowed: it does not
throw or access memory out of range; if it returns, the triangulation arises by Euclidean flips, has nondegenerate
triangles, `isDelaunay()` holds, and the fixed edges are where they were, with the same lengths. -/
theorem C61_signpost (fuel : ℕ) (m : Mesh) (hv : m.Valid) (ht : m.TriFaces) (len : ℕ → ℝ) (hM : m.Metric len)
    (marked : ℕ → Bool) (eps : ℝ) (he : 0 < eps) :
    signpostFlipToDelaunay fuel m len marked eps = .error .hang ∨
    ∃ m' len' k, signpostFlipToDelaunay fuel m len marked eps = .ok (m', len', k) ∧
      m'.Valid ∧ m'.TriFaces ∧ m'.Metric len' ∧ Chain EuclideanFlip k (m, len) (m', len') ∧
      (m'.nV = m.nV ∧ m'.nE = m.nE ∧ m'.nF = m.nF ∧ m'.nHe = m.nHe ∧ m'.nBL = m.nBL) ∧
      (∀ e, m.heLive (eHalfedge e) → m.isFixed marked e → m'.isFixed marked e ∧ len' e = len e ∧
        m'.heVertex (eHalfedge e) = m.heVertex (eHalfedge e) ∧
        m'.heVertex (twin (eHalfedge e)) = m.heVertex (twin (eHalfedge e))) ∧
      (∀ e, m'.heLive (eHalfedge e) → ¬ m'.isFixed marked e → -eps < m'.cotSum len' e) ∧
      m'.isDelaunay len' marked eps = .ok true := by
  rcases delaunayRun_spec (signpost_spec marked he) fuel m hv len ⟨hv, ht, hM⟩ with h | ⟨m', len', k, h, hP, hC, hl, hg⟩
  · exact Or.inl h
  · obtain ⟨hv', ht', hM'⟩ := hP
    refine Or.inr ⟨m', len', k, h, hv', ht', hM', ?_, chain_counts (fun s s' ⟨⟨e, _, h, _⟩, _⟩ => ⟨e, h⟩) hC, ?_, ?_, ?_⟩
    · clear h hg hl
      generalize (m, len) = s at hC
      generalize (m', len') = s' at hC
      induction hC with
      | nil a => exact Chain.nil a
      | cons h _ ih => exact Chain.cons h.1 ih
    · intro e le hf
      have : ∀ {s s' : Mesh × (ℕ → ℝ)} {k : ℕ}, Chain (fun s s' => EuclideanFlip s s' ∧ KeepsFixed marked s s') k s s' →
          s.1.heLive (eHalfedge e) → s.1.isFixed marked e → s'.1.isFixed marked e ∧ s'.2 e = s.2 e ∧
            s'.1.heVertex (eHalfedge e) = s.1.heVertex (eHalfedge e) ∧
            s'.1.heVertex (twin (eHalfedge e)) = s.1.heVertex (twin (eHalfedge e)) := by
        intro s s' k h
        induction h with
        | nil => intro _ hf; exact ⟨hf, rfl, rfl, rfl⟩
        | cons h _ ih =>
          intro hl hf
          obtain ⟨q1, q2, q3, q4, q5⟩ := h.2 e hl hf
          obtain ⟨r2, r3, r4, r5⟩ := ih q1 q2
          exact ⟨r2, r3.trans q3, r4.trans q4, r5.trans q5⟩
      exact this hC le hf
    · intro e le hf
      rcases hg e le with h | h
      · exact absurd h hf
      · have nb : ¬ m'.eIsBoundary e := fun c => hf (Or.inl c)
        rwa [weight_eq_cotSum hv' ht' hM' le nb] at h
    · obtain ⟨-, -, -, -, ⟨l, hl, ⟨-, hmem⟩, -⟩, -⟩ := C16_ranges m' hv'
      simp only [isDelaunay, hl]
      congr 1
      rw [List.all_eq_true]
      intro e hmem'
      rw [@decide_eq_true_iff _ (_)]
      rintro ⟨h1, h2⟩
      rcases hg e ((hmem e).1 hmem') with h | h
      · exact h1 h
      · linarith

/-- **C61 (single flips).** `flipEdgeIfPossible` leaves everything as it is and returns `false`, or it does a Euclidean
flip to nondegenerate triangles. -/
theorem C61_flipIfPossible (m : Mesh) (hv : m.Valid) (ht : m.TriFaces) (len : ℕ → ℝ) (hM : m.Metric len)
    (marked : ℕ → Bool) (eps : ℝ) (he : 0 < eps) (e : ℕ) (hl : m.heLive (eHalfedge e)) :
    signpostFlipIfPossible marked eps m len e = .ok (m, len, false) ∨
    ∃ m' len', signpostFlipIfPossible marked eps m len e = .ok (m', len', true) ∧ ¬ m.isFixed marked e ∧
      m'.Valid ∧ m'.TriFaces ∧ m'.Metric len' ∧ EuclideanFlip (m, len) (m', len') := by
  unfold signpostFlipIfPossible
  by_cases hf : m.isFixed marked e
  · left; rw [if_pos hf]
  rw [if_neg hf]
  have hb : ¬ m.eIsBoundary e := fun c => hf (Or.inl c)
  obtain ⟨p0, p1, p2, p3, hp⟩ : ∃ p0 p1 p2 p3, m.layoutDiamond len (eHalfedge e) = (p0, p1, p2, p3) := ⟨_, _, _, _, rfl⟩
  obtain ⟨d01, d12, d23, d30, d02, g3, g1⟩ := diamond_of hv hM hl hb hp
  rw [hp]
  simp only
  have c1 : V2.cross (p1.sub p0) (p3.sub p0) = area2 p3 p0 p1 := by unfold V2.cross V2.sub area2; ring
  have c2 : V2.cross (p3.sub p2) (p1.sub p2) = area2 p3 p1 p2 := by unfold V2.cross V2.sub area2; ring
  have c3 : area2 p3 p0 p1 + area2 p3 p1 p2 = area2 p3 p0 p2 + area2 p0 p1 p2 := by unfold area2; ring
  rw [c1, c2, c3, norm_sub]
  split_ifs with h
  · exact Or.inl rfl
  push Not at h
  have hpos : 0 < eps * (area2 p3 p0 p2 + area2 p0 p1 p2) := by positivity
  rcases flip_cases hv hl false with h' | ⟨h', hok, -⟩
  · left; unfold flipWith; rw [h']
  · right
    obtain ⟨⟨v1, v2, v3⟩, hR, -⟩ := euclidean_flip ⟨hv, ht, hM⟩ hok hp (by linarith) (by linarith) rfl rfl
    exact ⟨_, _, flipWith_ok hok _, hf, v1, v2, v3, hR⟩

/-- The square with sides 2 and diagonal 3 has a boundary and satisfies the hypotheses of C61. -/
example : square.Valid ∧ square.TriFaces ∧ square.Metric (fun e => if e = 1 then 3 else 2) ∧
    (∃ e, square.heLive (eHalfedge e) ∧ square.isFixed (fun _ => false) e) ∧
    (∃ e, square.heLive (eHalfedge e) ∧ ¬ square.isFixed (fun _ => false) e) := by
  refine ⟨square_valid, triFaces_of (by decide +kernel), fun i _ _ => ?_, ⟨0, by decide +kernel, Or.inl (by decide +kernel)⟩, ?_⟩
  · refine triOK_of_bounds ?_ ?_ ?_ <;> beta_reduce <;> split_ifs <;> norm_num
  · have : ∃ e < 5, square.heLive (eHalfedge e) ∧ ¬ square.eIsBoundary e := by decide +kernel
    obtain ⟨e, -, h1, h2⟩ := this
    refine ⟨e, h1, ?_⟩
    rintro (h | h)
    · exact h2 h
    · simp at h

end Mesh
end GC
