import Verif.SurfacePoint
import Mathlib.Tactic.Linarith
import Mathlib.Tactic.LinearCombination
import Mathlib.Tactic.Positivity
import Mathlib.Tactic.FieldSimp

/-! # C53: barycentric coordinate helpers -/

namespace GC
open Bary

/-- The sum of the coordinates. -/
def V3.total (b : V3) : ℝ := b.x + b.y + b.z

/-- **C53, displacement length.** For a displacement (coordinates with sum zero) in a triangle with corners `P0, P1, P2`, where
`L[i]` is the length of the side opposite corner `i`, `displacementLength2` and `displacementLength` are the squared length
and the length of the Cartesian displacement. -/
theorem C53_displacementLength (P0 P1 P2 : V2) (L d : V3) (h0 : L.x = (P1.sub P2).norm) (h1 : L.y = (P2.sub P0).norm)
    (h2 : L.z = (P0.sub P1).norm) (hd : d.total = 0) :
    displacementLength2 d L = (toCartesian P0 P1 P2 d).norm2 ∧ displacementLength d L = (toCartesian P0 P1 P2 d).norm := by
  have sq : ∀ u : V2, u.norm * u.norm = u.x * u.x + u.y * u.y := fun u => Real.mul_self_sqrt (add_nonneg (mul_self_nonneg _) (mul_self_nonneg _))
  have hz : d.z = -d.x - d.y := by unfold V3.total at hd; linarith
  have key : displacementLength2 d L = (toCartesian P0 P1 P2 d).norm2 := by
    simp only [displacementLength2, V3.get, if_true, one_ne_zero, if_false, OfNat.ofNat_ne_zero, OfNat.ofNat_ne_one]
    rw [h0, h1, h2, sq, sq, sq]
    simp only [toCartesian, V2.norm2, V2.add, V2.smul, V2.sub]
    rw [hz]; ring
  refine ⟨key, ?_⟩
  unfold displacementLength V2.norm
  rw [key, max_eq_left]
  · rfl
  · unfold V2.norm2; exact add_nonneg (mul_self_nonneg _) (mul_self_nonneg _)

example : ∃ (P0 P1 P2 : V2) (d : V3), d.total = 0 ∧ (toCartesian P0 P1 P2 d).norm2 = 2 :=
  ⟨⟨0, 0⟩, ⟨1, 0⟩, ⟨0, 1⟩, ⟨0, 1, -1⟩, by norm_num [V3.total], by norm_num [toCartesian, V2.norm2, V2.add, V2.smul]⟩

/-- **C53, normalisation.** `normalizeBarycentric` returns coordinates with sum one, proportional to the given ones (unless
they sum to zero), and keeps coordinates that already have sum one. -/
theorem C53_normalize (b : V3) :
    (Bary.normalize b).total = 1 ∧ (b.total ≠ 0 → (Bary.normalize b).smul b.total = b) ∧ (b.total = 1 → Bary.normalize b = b) := by
  unfold Bary.normalize V3.total
  simp only
  by_cases h : b.x + b.y + b.z = 0
  · rw [if_pos h]
    refine ⟨by norm_num, fun h' => absurd h h', fun h' => ?_⟩
    rw [h] at h'; norm_num at h'
  · rw [if_neg h]
    refine ⟨?_, fun _ => ?_, fun h1 => ?_⟩
    · simp only [V3.sdiv]
      linear_combination one_div_mul_cancel h
    · ext
      · simp only [V3.sdiv, V3.smul]; linear_combination b.x * one_div_mul_cancel h
      · simp only [V3.sdiv, V3.smul]; linear_combination b.y * one_div_mul_cancel h
      · simp only [V3.sdiv, V3.smul]; linear_combination b.z * one_div_mul_cancel h
    · rw [h1]; ext <;> simp [V3.sdiv]

/-- **C53, displacements.** `normalizeBarycentricDisplacement` returns the coordinates with sum zero that differ from the given
ones by a multiple of (1,1,1), and keeps displacements. -/
theorem C53_normalizeDisplacement (b : V3) :
    (normalizeDisplacement b).total = 0 ∧ (∃ s, (normalizeDisplacement b).x + s = b.x ∧ (normalizeDisplacement b).y + s = b.y ∧
      (normalizeDisplacement b).z + s = b.z) ∧ (b.total = 0 → normalizeDisplacement b = b) := by
  refine ⟨?_, ⟨(b.x + b.y + b.z) / 3, ?_, ?_, ?_⟩, ?_⟩
  · simp only [normalizeDisplacement, V3.total, V3.sub, V3.smul]; ring
  · simp only [normalizeDisplacement, V3.sub, V3.smul]; ring
  · simp only [normalizeDisplacement, V3.sub, V3.smul]; ring
  · simp only [normalizeDisplacement, V3.sub, V3.smul]; ring
  · intro h
    unfold V3.total at h
    simp only [normalizeDisplacement, h]
    ext <;> simp [V3.sub, V3.smul]

/-- **C53, projection.** `projectInsideTriangle` always returns a point of the triangle and keeps points of the triangle. -/
theorem C53_projectInside (b : V3) :
    (projectInside b).total = 1 ∧ 0 ≤ (projectInside b).x ∧ 0 ≤ (projectInside b).y ∧ 0 ≤ (projectInside b).z ∧
    (b.total = 1 → 0 ≤ b.x → 0 ≤ b.y → 0 ≤ b.z → projectInside b = b) := by
  refine ⟨(C53_normalize _).1, ?_⟩
  have hx : 0 ≤ max b.x 0 := le_max_right _ _
  have hy : 0 ≤ max b.y 0 := le_max_right _ _
  have hz : 0 ≤ max b.z 0 := le_max_right _ _
  refine ⟨?_, ?_, ?_, ?_⟩
  · simp only [projectInside, Bary.normalize]
    split
    · norm_num
    · simp only [V3.sdiv]; positivity
  · simp only [projectInside, Bary.normalize]
    split
    · norm_num
    · simp only [V3.sdiv]; positivity
  · simp only [projectInside, Bary.normalize]
    split
    · norm_num
    · simp only [V3.sdiv]; positivity
  · intro h1 h2 h3 h4
    unfold projectInside
    rw [max_eq_left h2, max_eq_left h3, max_eq_left h4]
    exact (C53_normalize b).2.2 h1

example : (⟨1 / 2, 1 / 2, 0⟩ : V3).total = 1 := by norm_num [V3.total]

end GC
