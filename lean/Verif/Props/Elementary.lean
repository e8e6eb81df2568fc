import Verif.Elementary
import Mathlib.Tactic.Ring
import Mathlib.Tactic.Linarith
import Mathlib.Tactic.FieldSimp
import Mathlib.Tactic.LinearCombination
import Mathlib.Tactic.NormNum
import Mathlib.LinearAlgebra.Matrix.NonsingularInverse

/-! # C75: nearest points, intersections, the fourth point of a tetrahedron -/

namespace GC

/-- The parameter of the clamp minimizes the square `A t² − 2 B t` on `[0, 1]`. -/
theorem clamp_min {A B t : ℝ} (hA : 0 < A) (h0 : 0 ≤ t) (h1 : t ≤ 1) :
    A * (clampR (B / A) 0 1) ^ 2 - 2 * B * clampR (B / A) 0 1 ≤ A * t ^ 2 - 2 * B * t := by
  have hB : B / A * A = B := by field_simp
  unfold clampR
  split_ifs with c d
  · have : A < B := by nlinarith [(lt_div_iff₀ hA).1 c]
    nlinarith [mul_nonneg (sub_nonneg.2 h1) (sub_nonneg.2 this.le), mul_nonneg hA.le (sq_nonneg (1 - t))]
  · have : B < 0 := by
      by_contra q
      exact absurd d (not_lt.2 (div_nonneg (not_lt.1 q) hA.le))
    nlinarith [mul_nonneg h0 (neg_nonneg.2 this.le), mul_nonneg hA.le (sq_nonneg t)]
  · set u := B / A
    nlinarith [mul_nonneg hA.le (sq_nonneg (t - u))]

theorem clamp_range (x : ℝ) : 0 ≤ clampR x 0 1 ∧ clampR x 0 1 ≤ 1 := by
  unfold clampR
  split_ifs with c d
  · exact ⟨zero_le_one, le_rfl⟩
  · exact ⟨le_rfl, zero_le_one⟩
  · exact ⟨not_lt.1 d, not_lt.1 c⟩

/-- The distance from `p` to the segment from `a` to `b`. -/
def IsDist2 (p a b : V2) (d : ℝ) : Prop :=
  IsLeast {r | ∃ t, 0 ≤ t ∧ t ≤ 1 ∧ r = (p.sub (a.add ((b.sub a).smul t))).norm} d
def IsDist3 (p a b : V3) (d : ℝ) : Prop :=
  IsLeast {r | ∃ t, 0 ≤ t ∧ t ≤ 1 ∧ r = (p.sub (a.add ((b.sub a).smul t))).norm} d

/-- **C75, distance in the plane.** -/
theorem C75_distance2 (p a b : V2) : IsDist2 p a b (pointLineSegmentDistance2 p a b) := by
  unfold pointLineSegmentDistance2
  simp only
  split_ifs with h
  · have hx : a.x - b.x = 0 ∧ a.y - b.y = 0 := by
      simp only [V2.norm2, V2.sub] at h
      constructor <;> nlinarith [mul_self_nonneg (a.x - b.x), mul_self_nonneg (a.y - b.y)]
    have e1 : b.x = a.x := by linarith [hx.1]
    have e2 : b.y = a.y := by linarith [hx.2]
    have key : ∀ t, (a.sub p).norm = (p.sub (a.add ((b.sub a).smul t))).norm := by
      intro t
      unfold V2.norm
      congr 1
      simp only [V2.sub, V2.add, V2.smul, e1, e2]
      ring
    refine ⟨⟨0, le_rfl, zero_le_one, key 0⟩, ?_⟩
    rintro r ⟨t, -, -, rfl⟩
    exact (key t).le
  · have hA : 0 < (a.sub b).norm2 := lt_of_le_of_ne (add_nonneg (mul_self_nonneg _) (mul_self_nonneg _)) (Ne.symm h)
    refine ⟨⟨_, (clamp_range _).1, (clamp_range _).2, rfl⟩, ?_⟩
    rintro r ⟨t, t0, t1, rfl⟩
    unfold V2.norm
    apply Real.sqrt_le_sqrt
    have := clamp_min (B := V2.dot (p.sub a) (b.sub a)) hA t0 t1
    generalize clampR (V2.dot (p.sub a) (b.sub a) / (a.sub b).norm2) 0 1 = u at this ⊢
    simp only [V2.norm2, V2.sub, V2.add, V2.smul, V2.dot] at this ⊢
    nlinarith

/-- **C75, distance in space.**  The parameter belongs to a nearest point. -/
theorem C75_distance3 (p a b : V3) : IsDist3 p a b (pointLineSegmentDistance3 p a b) ∧
    0 ≤ pointLineSegmentNearestLocation p a b ∧ pointLineSegmentNearestLocation p a b ≤ 1 ∧
    (p.sub (a.add ((b.sub a).smul (pointLineSegmentNearestLocation p a b)))).norm = pointLineSegmentDistance3 p a b := by
  have e0 : ∀ t, (p.sub (a.add ((b.sub a).smul t))).norm = (p.sub (a.add (V3.lmul t (b.sub a)))).norm := by
    intro t
    unfold V3.norm
    congr 1
    simp only [V3.sub, V3.add, V3.smul, V3.lmul]
    ring
  have rng : 0 ≤ pointLineSegmentNearestLocation p a b ∧ pointLineSegmentNearestLocation p a b ≤ 1 := by
    unfold pointLineSegmentNearestLocation
    simp only
    split_ifs with h
    · exact ⟨le_rfl, zero_le_one⟩
    · exact clamp_range _
  refine ⟨⟨⟨_, rng.1, rng.2, (e0 _).symm⟩, ?_⟩, rng.1, rng.2, e0 _⟩
  rintro r ⟨t, t0, t1, rfl⟩
  rw [e0]
  unfold pointLineSegmentDistance3 pointLineSegmentNearestLocation
  simp only
  apply Real.sqrt_le_sqrt
  split_ifs with h
  · have hx : a.x - b.x = 0 ∧ a.y - b.y = 0 ∧ a.z - b.z = 0 := by
      simp only [V3.norm2, V3.sub] at h
      refine ⟨?_, ?_, ?_⟩ <;> nlinarith [mul_self_nonneg (a.x - b.x), mul_self_nonneg (a.y - b.y), mul_self_nonneg (a.z - b.z)]
    have e1 : b.x = a.x := by linarith [hx.1]
    have e2 : b.y = a.y := by linarith [hx.2.1]
    have e3 : b.z = a.z := by linarith [hx.2.2]
    apply le_of_eq
    simp only [V3.sub, V3.add, V3.lmul, e1, e2, e3]
    ring
  · have hA : 0 < (a.sub b).norm2 := lt_of_le_of_ne (add_nonneg (add_nonneg (mul_self_nonneg _) (mul_self_nonneg _)) (mul_self_nonneg _)) (Ne.symm h)
    have := clamp_min (B := V3.dot (p.sub a) (b.sub a)) hA t0 t1
    generalize clampR (V3.dot (p.sub a) (b.sub a) / (a.sub b).norm2) 0 1 = u at this ⊢
    simp only [V3.norm2, V3.sub, V3.add, V3.lmul, V3.dot] at this ⊢
    nlinarith

/-- The point with parameter `t` on the line from `p` in direction `d`. -/
def V2.at (p d : V2) (t : ℝ) : V2 := p.add (d.smul t)

/-- **C75, two rays.**  If they are not parallel the parameters are those of the only common point of the two lines. -/
theorem C75_rayRay (p d q e : V2) (h : V2.cross d e ≠ 0) :
    ∃ t s, rayRayIntersection p d q e = (some t, some s) ∧ ∀ t' s', p.at d t' = q.at e s' ↔ t' = t ∧ s' = s := by
  have hd : V2.dot e ⟨-d.y, d.x⟩ ≠ 0 := by
    intro c; apply h; simp only [V2.dot, V2.cross] at c ⊢; linarith
  refine ⟨V2.cross e (p.sub q) / V2.dot e ⟨-d.y, d.x⟩, V2.dot (p.sub q) ⟨-d.y, d.x⟩ / V2.dot e ⟨-d.y, d.x⟩,
    by unfold rayRayIntersection; simp only [fdiv, if_neg hd], fun t' s' => ?_⟩
  rw [eq_div_iff hd, eq_div_iff hd, V2.ext_iff]
  simp only [V2.at, V2.add, V2.smul, V2.dot, V2.cross, V2.sub] at *
  constructor
  · rintro ⟨h1, h2⟩
    constructor
    · linear_combination e.y * h1 - e.x * h2
    · linear_combination d.y * h1 - d.x * h2
  · rintro ⟨h1, h2⟩
    have hD : d.x * e.y - d.y * e.x ≠ 0 := h
    constructor
    · apply mul_left_cancel₀ hD
      linear_combination d.x * h1 - e.x * h2
    · apply mul_left_cancel₀ hD
      linear_combination d.y * h1 - e.y * h2

/-- **C75, ray and segment.** -/
theorem C75_raySegment (p d a b : V2) (h : V2.cross d (b.sub a) ≠ 0) :
    ∃ t s, raySegmentIntersection p d a b = (some t, some s) ∧ ∀ t' s', p.at d t' = a.at (b.sub a) s' ↔ t' = t ∧ s' = s :=
  C75_rayRay p d a (b.sub a) h

/-- The points of a segment. -/
def segPts (a b : V2) : Set V2 := {x | ∃ t, 0 ≤ t ∧ t ≤ 1 ∧ x = a.at (b.sub a) t}

open Classical in
/-- **C75, two segments (partial: segments that are not parallel).**  `hit` tells whether they meet, and the parameters are those of the common point.
Parallel segments are never reported, see `C75_parallel`. -/
theorem C75_segments_partial (a b c d : V2) (h : V2.cross (b.sub a) (d.sub c) ≠ 0) :
    ∃ t s hit, segmentSegmentIntersection a b c d = (some t, some s, hit) ∧ a.at (b.sub a) t = c.at (d.sub c) s ∧
      (hit = true ↔ (segPts a b ∩ segPts c d).Nonempty) := by
  have hn : (b.sub a).norm ≠ 0 := by
    intro z
    unfold V2.norm at z
    rw [Real.sqrt_eq_zero (add_nonneg (mul_self_nonneg _) (mul_self_nonneg _))] at z
    apply h
    have z1 : (b.sub a).x = 0 := by nlinarith [mul_self_nonneg (b.sub a).x, mul_self_nonneg (b.sub a).y]
    have z2 : (b.sub a).y = 0 := by nlinarith [mul_self_nonneg (b.sub a).x, mul_self_nonneg (b.sub a).y]
    unfold V2.cross; rw [z1, z2]; ring
  set n := (b.sub a).norm with hnd
  have h' : V2.cross ((b.sub a).sdiv n) (d.sub c) ≠ 0 := by
    have : V2.cross ((b.sub a).sdiv n) (d.sub c) = V2.cross (b.sub a) (d.sub c) * (1 / n) := by
      simp only [V2.cross, V2.sdiv]; ring
    rw [this]; exact mul_ne_zero h (one_div_ne_zero hn)
  obtain ⟨t, s, r, hu⟩ := C75_raySegment a ((b.sub a).sdiv n) c d h'
  have conv : ∀ x, a.at (b.sub a) x = a.at ((b.sub a).sdiv n) (x * n) := by
    intro x
    simp only [V2.at, V2.add, V2.smul, V2.sdiv, V2.mk.injEq]
    constructor <;> field_simp
  have hu' : ∀ t' s', a.at (b.sub a) t' = c.at (d.sub c) s' ↔ t' = t / n ∧ s' = s := by
    intro t' s'
    rw [conv, hu, eq_div_iff hn]
  refine ⟨t / n, s, decide (unitRange (some (t / n)) ∧ unitRange (some s)), ?_, (hu' _ _).2 ⟨rfl, rfl⟩, ?_⟩
  · unfold segmentSegmentIntersection
    simp only [← hnd, if_neg hn, r]
    rfl
  · have ur : ∀ x : ℝ, unitRange (some x) ↔ 0 ≤ x ∧ x ≤ 1 := fun x => by
      constructor
      · rintro ⟨y, e, p, q⟩
        injection e with e
        subst e
        exact ⟨p, q⟩
      · exact fun q => ⟨x, rfl, q.1, q.2⟩
    rw [decide_eq_true_eq, ur, ur]
    constructor
    · rintro ⟨⟨a1, a2⟩, b1, b2⟩
      exact ⟨_, ⟨_, a1, a2, rfl⟩, ⟨s, b1, b2, (hu' _ _).2 ⟨rfl, rfl⟩⟩⟩
    · rintro ⟨x, ⟨t', a1, a2, e1⟩, ⟨s', b1, b2, e2⟩⟩
      obtain ⟨rfl, rfl⟩ := (hu' t' s').1 (e1.symm.trans e2)
      exact ⟨⟨a1, a2⟩, b1, b2⟩

/-- **C75, parallel segments.**  They are never reported, not even a segment with itself. -/
theorem C75_parallel (a b c d : V2) (h : V2.cross (b.sub a) (d.sub c) = 0) : (segmentSegmentIntersection a b c d).2.2 = false := by
  unfold segmentSegmentIntersection
  simp only
  split_ifs with z
  · rfl
  · have : V2.dot (d.sub c) ⟨-((b.sub a).sdiv (b.sub a).norm).y, ((b.sub a).sdiv (b.sub a).norm).x⟩ = 0 := by
      simp only [V2.dot, V2.sdiv]
      simp only [V2.cross] at h
      linear_combination (1 / (b.sub a).norm) * h
    have hr : raySegmentIntersection a ((b.sub a).sdiv (b.sub a).norm) c d = (none, none) := by
      simp only [raySegmentIntersection, fdiv, if_pos this]
    rw [hr, decide_eq_false_iff_not]
    rintro ⟨⟨x, e, -⟩, -⟩
    cases e

example : (segmentSegmentIntersection ⟨0, 0⟩ ⟨1, 0⟩ ⟨0, 0⟩ ⟨1, 0⟩).2.2 = false ∧ (segPts ⟨0, 0⟩ ⟨1, 0⟩ ∩ segPts ⟨0, 0⟩ ⟨1, 0⟩).Nonempty :=
  ⟨C75_parallel _ _ _ _ (by norm_num [V2.cross, V2.sub]), ⟨_, ⟨0, le_rfl, zero_le_one, rfl⟩, ⟨0, le_rfl, zero_le_one, rfl⟩⟩⟩

/-- The diagonals of a square. -/
example : ∃ t s, segmentSegmentIntersection ⟨0, 0⟩ ⟨1, 1⟩ ⟨1, 0⟩ ⟨0, 1⟩ = (some t, some s, true) := by
  obtain ⟨t, s, hit, e, -, h⟩ := C75_segments_partial ⟨0, 0⟩ ⟨1, 1⟩ ⟨1, 0⟩ ⟨0, 1⟩ (by norm_num [V2.cross, V2.sub])
  have : hit = true := h.2 ⟨⟨1/2, 1/2⟩, ⟨1/2, by norm_num, by norm_num, by norm_num [V2.at, V2.add, V2.smul, V2.sub]⟩,
    ⟨1/2, by norm_num, by norm_num, by norm_num [V2.at, V2.add, V2.smul, V2.sub]⟩⟩
  exact ⟨t, s, by rw [e, this]⟩

/-! ## The fourth point -/

/-- Six times the signed volume of the tetrahedron. -/
def vol6 (a b c d : V3) : ℝ := V3.dot (d.sub a) (V3.cross (b.sub a) (c.sub a))

/-- Components with respect to an orthonormal basis. -/
theorem onb_expand {e f : V3} (h1 : V3.dot e e = 1) (h2 : V3.dot f f = 1) (h3 : V3.dot e f = 0) (w : V3) :
    w = ((V3.lmul (V3.dot w e) e).add (V3.lmul (V3.dot w f) f)).add (V3.lmul (V3.dot w (V3.cross e f)) (V3.cross e f)) := by
  let M : Matrix (Fin 3) (Fin 3) ℝ := !![e.x, e.y, e.z; f.x, f.y, f.z; (V3.cross e f).x, (V3.cross e f).y, (V3.cross e f).z]
  simp only [V3.dot] at h1 h2 h3
  have hM : M * M.transpose = 1 := by
    ext i j
    fin_cases i <;> fin_cases j <;> simp [M, Matrix.mul_apply, Fin.sum_univ_three, V3.cross]
    · linear_combination h1
    · linear_combination h3
    · ring
    · linear_combination h3
    · linear_combination h2
    · ring
    · ring
    · ring
    · linear_combination (f.x * f.x + f.y * f.y + f.z * f.z) * h1 + h2 - (e.x * f.x + e.y * f.y + e.z * f.z) * h3
  have hM' : M.transpose * M = 1 := _root_.mul_eq_one_comm.1 hM
  have g : ∀ i j, (M.transpose * M) i j = (1 : Matrix (Fin 3) (Fin 3) ℝ) i j := fun i j => by rw [hM']
  have g00 := g 0 0
  have g01 := g 0 1
  have g02 := g 0 2
  have g11 := g 1 1
  have g12 := g 1 2
  have g22 := g 2 2
  simp [M, Matrix.mul_apply, Fin.sum_univ_three] at g00 g01 g02 g11 g12 g22
  ext
  · simp only [V3.add, V3.lmul, V3.dot]
    linear_combination -w.x * g00 - w.y * g01 - w.z * g02
  · simp only [V3.add, V3.lmul, V3.dot]
    linear_combination -w.x * g01 - w.y * g11 - w.z * g12
  · simp only [V3.add, V3.lmul, V3.dot]
    linear_combination -w.x * g02 - w.y * g12 - w.z * g22

/-- **C75, the fourth point (partial).**  If there is a point `d` with the given distances, the result is the one of them for which the tetrahedron `a, b, c, d`
is *not* positively oriented.  The declaration promises the positively oriented one, see `C75_tet_orientation`. -/
theorem C75_tet_partial (a b c d : V3) (h : V3.cross (b.sub a) (c.sub a) ≠ ⟨0, 0, 0⟩) (hd : vol6 a b c d ≤ 0) :
    tetFourthPoint a b c (d.sub a).norm (d.sub b).norm (d.sub c).norm = d := by
  set u := b.sub a with hu
  set v := c.sub a with hv
  set w := d.sub a with hw
  have sq : ∀ x : V3, x.norm * x.norm = V3.dot x x := fun x => by
    unfold V3.norm V3.dot
    exact Real.mul_self_sqrt (by nlinarith [mul_self_nonneg x.x, mul_self_nonneg x.y, mul_self_nonneg x.z])
  have nn : ∀ x : V3, 0 ≤ x.norm := fun x => Real.sqrt_nonneg _
  have n0 : ∀ x : V3, x.norm = 0 → x = ⟨0, 0, 0⟩ := fun x hx => by
    have := sq x
    rw [hx] at this
    unfold V3.dot at this
    ext <;> show _ = (0 : ℝ) <;> nlinarith [mul_self_nonneg x.x, mul_self_nonneg x.y, mul_self_nonneg x.z]
  -- the basis
  have hnu : 0 < u.norm := lt_of_le_of_ne (nn u) (fun z => h (by rw [n0 u z.symm]; simp [V3.cross]))
  set e1 := u.sdiv u.norm with he1
  have u1 : u = V3.lmul u.norm e1 := by
    ext <;> simp only [he1, V3.lmul, V3.sdiv] <;> field_simp
  have e11 : V3.dot e1 e1 = 1 := by
    have := sq u
    have q : V3.dot e1 e1 = V3.dot u u * (1 / u.norm) * (1 / u.norm) := by simp only [he1, V3.dot, V3.sdiv]; ring
    rw [q, ← this]; field_simp
  set f := v.sub (V3.lmul (V3.dot v e1) e1) with hf
  have fe : V3.dot e1 f = 0 := by
    have : V3.dot e1 f = V3.dot v e1 - V3.dot v e1 * V3.dot e1 e1 := by simp only [hf, V3.dot, V3.sub, V3.lmul]; ring
    rw [this, e11]; ring
  have hnf : 0 < f.norm := by
    refine lt_of_le_of_ne (nn f) (fun z => h ?_)
    have f0 := n0 f z.symm
    rw [V3.ext_iff] at f0
    simp only [hf, V3.sub, V3.lmul] at f0
    have v1 : v = V3.lmul (V3.dot v e1) e1 := by
      ext <;> simp only [V3.lmul] <;> linarith [f0.1, f0.2.1, f0.2.2]
    rw [v1, u1]
    simp only [V3.cross, V3.lmul, V3.mk.injEq]
    refine ⟨by ring, by ring, by ring⟩
  set e2 := f.sdiv f.norm with he2
  have f1 : f = V3.lmul f.norm e2 := by
    ext <;> simp only [he2, V3.lmul, V3.sdiv] <;> field_simp
  have e22 : V3.dot e2 e2 = 1 := by
    have := sq f
    have q : V3.dot e2 e2 = V3.dot f f * (1 / f.norm) * (1 / f.norm) := by simp only [he2, V3.dot, V3.sdiv]; ring
    rw [q, ← this]; field_simp
  have e12 : V3.dot e1 e2 = 0 := by
    have q : V3.dot e1 e2 = V3.dot e1 f * (1 / f.norm) := by simp only [he2, V3.dot, V3.sdiv]; ring
    rw [q, fe]; ring
  have v1 : v = (V3.lmul (V3.dot v e1) e1).add (V3.lmul f.norm e2) := by
    rw [← f1]
    ext <;> simp only [hf, V3.add, V3.sub, V3.lmul] <;> ring
  have x2 : V3.dot u e1 = u.norm := by
    have : V3.dot u e1 = u.norm * V3.dot e1 e1 := by conv_lhs => rw [u1]
                                                     simp only [V3.dot, V3.lmul]; ring
    rw [this, e11]; ring
  have y3 : V3.dot v e2 = f.norm := by
    have : V3.dot v e2 = V3.dot v e1 * V3.dot e1 e2 + f.norm * V3.dot e2 e2 := by
      conv_lhs => rw [v1]
      simp only [V3.dot, V3.lmul, V3.add]; ring
    rw [this, e12, e22]; ring
  set e3 := V3.cross e1 e2 with he3
  have wexp := onb_expand e11 e22 e12 w
  rw [← he3] at wexp
  set p := V3.dot w e1 with hp
  set q := V3.dot w e2 with hq
  set r := V3.dot w e3 with hr
  have e33 : V3.dot e3 e3 = 1 := by
    have : V3.dot e3 e3 = V3.dot e1 e1 * V3.dot e2 e2 - V3.dot e1 e2 * V3.dot e1 e2 := by simp only [he3, V3.dot, V3.cross]; ring
    rw [this, e11, e22, e12]; ring
  have e13 : V3.dot e1 e3 = 0 := by simp only [he3, V3.dot, V3.cross]; ring
  have e23 : V3.dot e2 e3 = 0 := by simp only [he3, V3.dot, V3.cross]; ring
  have uv : V3.cross u v = V3.lmul (u.norm * f.norm) e3 := by
    conv_lhs => rw [u1, v1]
    simp only [he3, V3.cross, V3.lmul, V3.add, V3.mk.injEq]
    refine ⟨by ring, by ring, by ring⟩
  -- the coordinates of the point
  have ww : V3.dot w w = p * p + q * q + r * r := by
    conv_lhs => rw [wexp]
    simp only [V3.dot, V3.add, V3.lmul] at *
    linear_combination p * p * e11 + q * q * e22 + r * r * e33 + 2 * p * q * e12 + 2 * p * r * e13 + 2 * q * r * e23
  have dbu : V3.dot (d.sub b) (d.sub b) = V3.dot w w - 2 * V3.dot w u + V3.dot u u := by
    simp only [hw, hu, V3.dot, V3.sub]; ring
  have dcv : V3.dot (d.sub c) (d.sub c) = V3.dot w w - 2 * V3.dot w v + V3.dot v v := by
    simp only [hw, hv, V3.dot, V3.sub]; ring
  have wu : V3.dot w u = u.norm * p := by
    conv_lhs => rw [u1]
    simp only [hp, V3.dot, V3.lmul]; ring
  have wv : V3.dot w v = V3.dot v e1 * p + f.norm * q := by
    conv_lhs => rw [v1]
    simp only [hp, hq, V3.dot, V3.lmul, V3.add]; ring
  have vv : V3.dot v v = V3.dot v e1 * V3.dot v e1 + f.norm * f.norm := by
    conv_lhs => rw [v1]
    generalize V3.dot v e1 = k
    simp only [V3.dot, V3.add, V3.lmul] at *
    linear_combination k * k * e11 + f.norm * f.norm * e22 + 2 * k * f.norm * e12
  have hvol : r ≤ 0 := by
    have : vol6 a b c d = u.norm * f.norm * r := by
      unfold vol6
      rw [← hu, ← hv, ← hw, uv]
      simp only [hr, V3.dot, V3.lmul]; ring
    rw [this] at hd
    by_contra z
    exact absurd hd (not_le.2 (mul_pos (mul_pos hnu hnf) (not_le.1 z)))
  have X4 : (w.norm * w.norm - (d.sub b).norm * (d.sub b).norm + u.norm * u.norm) / (2 * u.norm) = p := by
    rw [sq w, sq (d.sub b), dbu, wu, sq u, div_eq_iff (by positivity)]; ring
  have Y4 : (w.norm * w.norm - (d.sub c).norm * (d.sub c).norm + V3.dot v e1 * V3.dot v e1 + f.norm * f.norm - 2 * p * V3.dot v e1) / (2 * f.norm) = q := by
    rw [sq w, sq (d.sub c), dcv, wv, vv, div_eq_iff (by positivity)]; ring
  have Z4 : Real.sqrt (max 0 (w.norm * w.norm - p * p - q * q)) = -r := by
    rw [sq w, ww, show p * p + q * q + r * r - p * p - q * q = (-r) * (-r) by ring, max_eq_right (mul_self_nonneg _), Real.sqrt_mul_self (by linarith)]
  unfold tetFourthPoint
  simp only [← hu, ← hv, ← hw, ← he1, ← hf, ← he2, ← he3, x2, y3, X4, Y4, Z4]
  have vol1 : ¬ V3.dot ((((a.add (V3.lmul p e1)).add (V3.lmul q e2)).add (V3.lmul (-r) e3)).sub a) (V3.cross u v) < 0 := by
    rw [uv]
    have : V3.dot ((((a.add (V3.lmul p e1)).add (V3.lmul q e2)).add (V3.lmul (-r) e3)).sub a) (V3.lmul (u.norm * f.norm) e3) =
        u.norm * f.norm * (p * V3.dot e1 e3 + q * V3.dot e2 e3 + (-r) * V3.dot e3 e3) := by
      simp only [V3.dot, V3.lmul, V3.add, V3.sub]; ring
    rw [this, e13, e23, e33]
    apply not_lt.2
    have : 0 ≤ -r := by linarith
    have := mul_nonneg (mul_nonneg hnu.le hnf.le) this
    linarith
  rw [if_neg vol1]
  rw [V3.ext_iff] at wexp ⊢
  simp only [hw, V3.add, V3.sub, V3.lmul] at wexp ⊢
  exact ⟨by linarith [wexp.1], by linarith [wexp.2.1], by linarith [wexp.2.2]⟩

/-- **C75, orientation.**  The declaration (elementary_geometry.h:79-81) promises a positively oriented tetrahedron; for a positively oriented one the mirror image comes out. -/
theorem C75_tet_orientation : ∃ a b c d : V3, 0 < vol6 a b c d ∧ tetFourthPoint a b c (d.sub a).norm (d.sub b).norm (d.sub c).norm ≠ d ∧
    vol6 a b c (tetFourthPoint a b c (d.sub a).norm (d.sub b).norm (d.sub c).norm) < 0 := by
  refine ⟨⟨0, 0, 0⟩, ⟨1, 0, 0⟩, ⟨0, 1, 0⟩, ⟨0, 0, 1⟩, by norm_num [vol6, V3.dot, V3.cross, V3.sub], ?_⟩
  have h := C75_tet_partial ⟨0, 0, 0⟩ ⟨1, 0, 0⟩ ⟨0, 1, 0⟩ ⟨0, 0, -1⟩ (by norm_num [V3.cross, V3.sub]) (by norm_num [vol6, V3.dot, V3.cross, V3.sub])
  have e : ∀ x : V3, x.z = 0 → (V3.sub ⟨0, 0, 1⟩ x).norm = (V3.sub ⟨0, 0, -1⟩ x).norm := fun x hx => by
    simp only [V3.norm, V3.sub, hx]; congr 1; ring
  rw [e _ rfl, e _ rfl, e _ rfl, h]
  refine ⟨fun z => ?_, by norm_num [vol6, V3.dot, V3.cross, V3.sub]⟩
  have := congrArg V3.z z
  norm_num at this

end GC
