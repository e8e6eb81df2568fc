import Verif.Delaunay
import Mathlib.Tactic.Linarith
import Mathlib.Tactic.LinearCombination
import Mathlib.Tactic.FieldSimp
import Mathlib.Tactic.Positivity

/-! # Plane geometry of a flip -/

namespace GC

/-- Three lengths are the sides of a nondegenerate triangle. -/
structure TriOK (a b c : ℝ) : Prop where
  pa : 0 < a
  pb : 0 < b
  pc : 0 < c
  ha : a < b + c
  hb : b < c + a
  hc : c < a + b

theorem TriOK.rot {a b c : ℝ} (h : TriOK a b c) : TriOK b c a := ⟨h.pb, h.pc, h.pa, h.hb, h.hc, h.ha⟩
theorem TriOK.swap {a b c : ℝ} (h : TriOK a b c) : TriOK a c b :=
  ⟨h.pa, h.pc, h.pb, by linarith [h.ha], by linarith [h.hc], by linarith [h.hb]⟩

theorem TriOK.heron {a b c : ℝ} (h : TriOK a b c) :
    0 < (a + b + c) / 2 * ((a + b + c) / 2 - a) * ((a + b + c) / 2 - b) * ((a + b + c) / 2 - c) := by
  have := h.pa; have := h.pb; have := h.pc; have := h.ha; have := h.hb; have := h.hc
  refine mul_pos (mul_pos (mul_pos ?_ ?_) ?_) ?_ <;> linarith

theorem TriOK.area_pos {a b c : ℝ} (h : TriOK a b c) : 0 < triangleArea a b c := by
  unfold triangleArea
  exact Real.sqrt_pos.2 (lt_max_of_lt_right h.heron)

theorem TriOK.area_sq {a b c : ℝ} (h : TriOK a b c) :
    16 * triangleArea a b c ^ 2 = 4 * a ^ 2 * b ^ 2 - (a ^ 2 + b ^ 2 - c ^ 2) ^ 2 := by
  unfold triangleArea
  rw [Real.sq_sqrt (le_max_left _ _), max_eq_right h.heron.le]
  ring

theorem triangleArea_rot (a b c : ℝ) : triangleArea a b c = triangleArea b c a := by
  unfold triangleArea
  congr 2; ring

/-- Squared distance, dot product and signed double area of points. -/
def d2 (p q : V2) : ℝ := (p.x - q.x) ^ 2 + (p.y - q.y) ^ 2
noncomputable def pdist (p q : V2) : ℝ := Real.sqrt (d2 p q)
def dotAt (p q r : V2) : ℝ := (q.x - p.x) * (r.x - p.x) + (q.y - p.y) * (r.y - p.y)
def area2 (p q r : V2) : ℝ := (q.x - p.x) * (r.y - p.y) - (q.y - p.y) * (r.x - p.x)

theorem d2_nonneg (p q : V2) : 0 ≤ d2 p q := by unfold d2; positivity
theorem pdist_nonneg (p q : V2) : 0 ≤ pdist p q := Real.sqrt_nonneg _
theorem pdist_sq (p q : V2) : pdist p q ^ 2 = d2 p q := Real.sq_sqrt (d2_nonneg p q)
theorem d2_comm (p q : V2) : d2 p q = d2 q p := by unfold d2; ring
theorem pdist_comm (p q : V2) : pdist p q = pdist q p := by unfold pdist; rw [d2_comm]
theorem norm_sub (p q : V2) : (p.sub q).norm = pdist p q := by
  unfold V2.norm V2.sub pdist d2; congr 1; ring

/-- The distance is the given one if its square is. -/
theorem pdist_eq {p q : V2} {l : ℝ} (hl : 0 ≤ l) (h : d2 p q = l ^ 2) : pdist p q = l := by
  unfold pdist; rw [h, Real.sqrt_sq hl]

/-- The triangle of three points with positive area. -/
theorem triOK_of_points {p q r : V2} (h : 0 < area2 p q r) :
    TriOK (pdist p q) (pdist q r) (pdist r p) ∧ triangleArea (pdist p q) (pdist q r) (pdist r p) = area2 p q r / 2 := by
  have key : ∀ p q r : V2, 0 < area2 p q r → pdist p q < pdist q r + pdist r p ∧ 0 < pdist p q := by
    intro p q r h
    have n1 := pdist_nonneg p q
    have n2 := pdist_nonneg q r
    have n3 := pdist_nonneg r p
    have s1 := pdist_sq p q
    have s2 := pdist_sq q r
    have s3 := pdist_sq r p
    have hC : d2 q r * d2 r p = dotAt r p q ^ 2 + area2 p q r ^ 2 := by unfold d2 dotAt area2; ring
    have hD : d2 p q = d2 q r + d2 r p - 2 * dotAt r p q := by unfold d2 dotAt; ring
    constructor
    · by_contra hh
      push Not at hh
      have h1 : (pdist q r + pdist r p) ^ 2 ≤ d2 p q := by rw [← s1]; exact pow_le_pow_left₀ (by linarith) hh 2
      have h2 : pdist q r * pdist r p ≤ - dotAt r p q := by nlinarith
      have h3 : (pdist q r * pdist r p) ^ 2 ≤ dotAt r p q ^ 2 := by
        have : 0 ≤ pdist q r * pdist r p := mul_nonneg n2 n3
        nlinarith
      rw [mul_pow, s2, s3, hC] at h3
      nlinarith
    · rcases n1.lt_or_eq with h' | h'
      · exact h'
      · exfalso
        rw [← h'] at s1
        have h0 : d2 p q = 0 := by rw [← s1]; norm_num
        have e1 : p.x - q.x = 0 := by unfold d2 at h0; nlinarith [sq_nonneg (p.x - q.x), sq_nonneg (p.y - q.y)]
        have e2 : p.y - q.y = 0 := by unfold d2 at h0; nlinarith [sq_nonneg (p.x - q.x), sq_nonneg (p.y - q.y)]
        have : area2 p q r = 0 := by
          unfold area2
          have a1 : q.x = p.x := by linarith
          have a2 : q.y = p.y := by linarith
          rw [a1, a2]; ring
        linarith
  have r1 : area2 q r p = area2 p q r := by unfold area2; ring
  have r2 : area2 r p q = area2 p q r := by unfold area2; ring
  obtain ⟨k1, k1'⟩ := key p q r h
  obtain ⟨k2, k2'⟩ := key q r p (by rw [r1]; exact h)
  obtain ⟨k3, k3'⟩ := key r p q (by rw [r2]; exact h)
  have hT : TriOK (pdist p q) (pdist q r) (pdist r p) := ⟨k1', k2', k3', k1, k2, k3⟩
  refine ⟨hT, ?_⟩
  have hs := hT.area_sq
  rw [pdist_sq, pdist_sq, pdist_sq] at hs
  have : 4 * d2 p q * d2 q r - (d2 p q + d2 q r - d2 r p) ^ 2 = 4 * area2 p q r ^ 2 := by
    unfold d2 area2; ring
  rw [this] at hs
  have hp := hT.area_pos
  have : triangleArea (pdist p q) (pdist q r) (pdist r p) ^ 2 = (area2 p q r / 2) ^ 2 := by linarith
  exact (pow_left_inj₀ hp.le (by linarith) (by norm_num)).1 this

/-- **layoutTriangleVertex.** The new vertex has the required distances and lies to the left of `pA pB`. -/
theorem layoutTriangleVertex_spec (pA pB : V2) {lBC lCA : ℝ} (h : TriOK (pdist pA pB) lBC lCA) :
    pdist pB (layoutTriangleVertex pA pB lBC lCA) = lBC ∧ pdist (layoutTriangleVertex pA pB lBC lCA) pA = lCA ∧
      area2 pA pB (layoutTriangleVertex pA pB lBC lCA) = 2 * triangleArea (pdist pA pB) lBC lCA ∧
      0 < area2 pA pB (layoutTriangleVertex pA pB lBC lCA) := by
  set l := pdist pA pB with hl
  set A := triangleArea l lBC lCA with hA
  have hp := h.area_pos
  have hs := h.area_sq
  rw [← hA] at hp hs
  have hl0 : 0 < l := h.pa
  have hl2 : l ^ 2 = (pB.x - pA.x) ^ 2 + (pB.y - pA.y) ^ 2 := by rw [hl, pdist_sq]; unfold d2; ring
  have hn : (pB.sub pA).norm = l := by rw [norm_sub, pdist_comm]
  set u := pB.x - pA.x with hu
  set v := pB.y - pA.y with hv
  set h' := 2 * A / l with hh
  set w := (l * l - lBC * lBC + lCA * lCA) / (2 * l) with hw
  have e : layoutTriangleVertex pA pB lBC lCA =
      ⟨pA.x + (u * w - v * h') / l, pA.y + (v * w + u * h') / l⟩ := by
    unfold layoutTriangleVertex
    rw [hn]
    simp only [V2.sub, V2.sdiv, V2.smul, V2.add, ← hA, ← hh, ← hw, ← hu, ← hv]
    ext <;> simp only <;> ring
  rw [e]
  have hlh : l * h' = 2 * A := by rw [hh]; field_simp
  have hlw : 2 * l * w = l ^ 2 - lBC ^ 2 + lCA ^ 2 := by rw [hw]; field_simp
  have hwh : w ^ 2 + h' ^ 2 = lCA ^ 2 := by
    have : 4 * l ^ 2 * (w ^ 2 + h' ^ 2) = 4 * l ^ 2 * lCA ^ 2 := by
      have : 4 * l ^ 2 * (w ^ 2 + h' ^ 2) = (2 * l * w) ^ 2 + 4 * (l * h') ^ 2 := by ring
      rw [this, hlw, hlh]
      have : 4 * (2 * A) ^ 2 = 16 * A ^ 2 := by ring
      rw [this, hs]; ring
    exact mul_left_cancel₀ (by positivity) this
  have a2 : area2 pA pB ⟨pA.x + (u * w - v * h') / l, pA.y + (v * w + u * h') / l⟩ = 2 * A := by
    unfold area2
    simp only [← hu, ← hv]
    have : u * (pA.y + (v * w + u * h') / l - pA.y) - v * (pA.x + (u * w - v * h') / l - pA.x) =
        (u ^ 2 + v ^ 2) * h' / l := by ring
    rw [this, ← hl2]
    have : l ^ 2 * h' / l = l * h' := by field_simp
    rw [this, hlh]
  refine ⟨?_, ?_, a2, by rw [a2]; linarith⟩
  · refine pdist_eq h.pb.le ?_
    unfold d2
    simp only
    have e1 : (pB.x - (pA.x + (u * w - v * h') / l)) ^ 2 + (pB.y - (pA.y + (v * w + u * h') / l)) ^ 2 =
        (u ^ 2 + v ^ 2) - 2 * ((u ^ 2 + v ^ 2) * w) / l + (u ^ 2 + v ^ 2) * (w ^ 2 + h' ^ 2) / l ^ 2 := by
      have h1 : pB.x = pA.x + u := by rw [hu]; ring
      have h2 : pB.y = pA.y + v := by rw [hv]; ring
      rw [h1, h2]; ring
    rw [e1, ← hl2, hwh]
    have : l ^ 2 - 2 * (l ^ 2 * w) / l + l ^ 2 * lCA ^ 2 / l ^ 2 = l ^ 2 - 2 * l * w + lCA ^ 2 := by field_simp
    rw [this, hlw]; ring
  · refine pdist_eq h.pc.le ?_
    unfold d2
    simp only
    have e1 : (pA.x + (u * w - v * h') / l - pA.x) ^ 2 + (pA.y + (v * w + u * h') / l - pA.y) ^ 2 =
        (u ^ 2 + v ^ 2) * (w ^ 2 + h' ^ 2) / l ^ 2 := by ring
    rw [e1, ← hl2, hwh]
    field_simp

/-- Six lengths are the four sides `p0 p1, p1 p2, p2 p3, p3 p0` and the diagonals `p0 p2`, `p1 p3` of a strictly
convex quadrilateral in the plane. -/
def ConvexQuad (l01 l12 l23 l30 l02 l13 : ℝ) : Prop :=
  ∃ p0 p1 p2 p3 : V2, pdist p0 p1 = l01 ∧ pdist p1 p2 = l12 ∧ pdist p2 p3 = l23 ∧ pdist p3 p0 = l30 ∧
    pdist p0 p2 = l02 ∧ pdist p1 p3 = l13 ∧
    0 < area2 p3 p0 p2 ∧ 0 < area2 p0 p1 p2 ∧ 0 < area2 p3 p0 p1 ∧ 0 < area2 p3 p1 p2

/-- The diamond laid out as in the code. -/
theorem diamond_spec {l01 l12 l23 l30 l02 : ℝ} (hA : TriOK l02 l01 l12) (hB : TriOK l02 l23 l30) :
    let p3 : V2 := ⟨0, 0⟩
    let p0 : V2 := ⟨l30, 0⟩
    let p2 := layoutTriangleVertex p3 p0 l02 l23
    let p1 := layoutTriangleVertex p2 p0 l01 l12
    pdist p0 p1 = l01 ∧ pdist p1 p2 = l12 ∧ pdist p2 p3 = l23 ∧ pdist p3 p0 = l30 ∧ pdist p0 p2 = l02 ∧
      0 < area2 p3 p0 p2 ∧ 0 < area2 p0 p1 p2 := by
  intro p3 p0 p2 p1
  have d30 : pdist p3 p0 = l30 := pdist_eq hB.pc.le (by simp only [d2, p3, p0]; ring)
  obtain ⟨q1, q2, -, q4⟩ := layoutTriangleVertex_spec p3 p0 (lBC := l02) (lCA := l23) (by rw [d30]; exact hB.rot.rot)
  have d20 : pdist p2 p0 = l02 := by rw [pdist_comm]; exact q1
  obtain ⟨r1, r2, -, r4⟩ := layoutTriangleVertex_spec p2 p0 (lBC := l01) (lCA := l12) (by rw [d20]; exact hA)
  refine ⟨r1, r2, q2, d30, q1, q4, ?_⟩
  have : area2 p0 p1 p2 = area2 p2 p0 p1 := by unfold area2; ring
  rw [this]; exact r4

/-- The code's half cotangent of the angle opposite to the first side. -/
noncomputable def cotw (a b c : ℝ) : ℝ := (-a * a + b * b + c * c) / (4 * triangleArea a b c) / 2

theorem cotw_points {p q r : V2} (h : 0 < area2 p q r) :
    cotw (pdist p q) (pdist q r) (pdist r p) = dotAt r p q / area2 p q r / 2 := by
  unfold cotw
  rw [(triOK_of_points h).2]
  have : -pdist p q * pdist p q + pdist q r * pdist q r + pdist r p * pdist r p = 2 * dotAt r p q := by
    have := pdist_sq p q; have := pdist_sq q r; have := pdist_sq r p
    have e : -d2 p q + d2 q r + d2 r p = 2 * dotAt r p q := by unfold d2 dotAt; ring
    nlinarith
  rw [this]
  field_simp
  ring

/-- **Geometry of a flip.** Two triangles at an edge with negative cotangent weight: laid out in the plane they form
a strictly convex quadrilateral, and the weight of the other diagonal is positive. -/
theorem flip_geometry {p0 p1 p2 p3 : V2} (hB : 0 < area2 p3 p0 p2) (hA : 0 < area2 p0 p1 p2)
    (hw : cotw (pdist p0 p2) (pdist p0 p1) (pdist p1 p2) + cotw (pdist p0 p2) (pdist p2 p3) (pdist p3 p0) < 0) :
    0 < area2 p3 p0 p1 ∧ 0 < area2 p3 p1 p2 ∧
      0 < cotw (pdist p1 p3) (pdist p3 p0) (pdist p0 p1) + cotw (pdist p1 p3) (pdist p1 p2) (pdist p2 p3) := by
  have hA' : 0 < area2 p2 p0 p1 := by have : area2 p2 p0 p1 = area2 p0 p1 p2 := by unfold area2; ring
                                      rw [this]; exact hA
  have hB' : 0 < area2 p0 p2 p3 := by have : area2 p0 p2 p3 = area2 p3 p0 p2 := by unfold area2; ring
                                      rw [this]; exact hB
  have c1 := cotw_points hA'
  have c2 := cotw_points hB'
  rw [pdist_comm p2 p0] at c1
  rw [c1, c2] at hw
  have hw' : dotAt p1 p2 p0 * area2 p0 p2 p3 + dotAt p3 p0 p2 * area2 p2 p0 p1 < 0 := by
    have h1 := mul_neg_of_neg_of_pos hw (mul_pos hA' hB')
    have : (dotAt p1 p2 p0 / area2 p2 p0 p1 / 2 + dotAt p3 p0 p2 / area2 p0 p2 p3 / 2) *
        (area2 p2 p0 p1 * area2 p0 p2 p3) =
        (dotAt p1 p2 p0 * area2 p0 p2 p3 + dotAt p3 p0 p2 * area2 p2 p0 p1) / 2 := by
      have := hA'.ne'; have := hB'.ne'
      field_simp
    rw [this] at h1; linarith
  have i0 : dotAt p1 p2 p0 * area2 p0 p2 p3 + dotAt p3 p0 p2 * area2 p2 p0 p1 =
      d2 p3 p0 * area2 p2 p0 p1 + d2 p1 p0 * area2 p0 p2 p3 - d2 p0 p2 * area2 p3 p0 p1 := by
    unfold dotAt area2 d2; ring
  have i2 : dotAt p1 p2 p0 * area2 p0 p2 p3 + dotAt p3 p0 p2 * area2 p2 p0 p1 =
      d2 p3 p2 * area2 p2 p0 p1 + d2 p1 p2 * area2 p0 p2 p3 - d2 p0 p2 * area2 p3 p1 p2 := by
    unfold dotAt area2 d2; ring
  have hL : 0 < d2 p0 p2 := by
    have := (triOK_of_points hB').1.pa
    have s := pdist_sq p0 p2
    rw [← s]; positivity
  have g0 : 0 < area2 p3 p0 p1 := by
    have := mul_nonneg (d2_nonneg p3 p0) hA'.le
    have := mul_nonneg (d2_nonneg p1 p0) hB'.le
    have h3 : 0 < d2 p0 p2 * area2 p3 p0 p1 := by linarith
    exact (pos_iff_pos_of_mul_pos h3).1 hL
  have g2 : 0 < area2 p3 p1 p2 := by
    have := mul_nonneg (d2_nonneg p3 p2) hA'.le
    have := mul_nonneg (d2_nonneg p1 p2) hB'.le
    have h3 : 0 < d2 p0 p2 * area2 p3 p1 p2 := by linarith
    exact (pos_iff_pos_of_mul_pos h3).1 hL
  refine ⟨g0, g2, ?_⟩
  have g0' : 0 < area2 p1 p3 p0 := by have : area2 p1 p3 p0 = area2 p3 p0 p1 := by unfold area2; ring
                                      rw [this]; exact g0
  have g2' := g2
  have k1 := cotw_points g0'
  have k2 := cotw_points g2
  have k2' : cotw (pdist p1 p3) (pdist p1 p2) (pdist p2 p3) = dotAt p2 p3 p1 / area2 p3 p1 p2 / 2 := by
    rw [← k2, pdist_comm p1 p3]
  rw [k1, k2']
  have i3 : dotAt p0 p1 p3 * area2 p3 p1 p2 + dotAt p2 p3 p1 * area2 p1 p3 p0 =
      -(dotAt p1 p2 p0 * area2 p0 p2 p3 + dotAt p3 p0 p2 * area2 p2 p0 p1) := by
    unfold dotAt area2; ring
  have : dotAt p0 p1 p3 / area2 p1 p3 p0 / 2 + dotAt p2 p3 p1 / area2 p3 p1 p2 / 2 =
      (dotAt p0 p1 p3 * area2 p3 p1 p2 + dotAt p2 p3 p1 * area2 p1 p3 p0) / (2 * (area2 p1 p3 p0 * area2 p3 p1 p2)) := by
    have := g0'.ne'; have := g2.ne'
    field_simp
  rw [this, i3]
  exact div_pos (by linarith) (by positivity)

end GC
