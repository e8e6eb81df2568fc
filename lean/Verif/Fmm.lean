import Verif.SurfacePoint

/-! # Fast marching: the initial distances and the update of a triangle

Distances are real numbers, `signs[v]` is a real (`1` in the unsigned case). The priority queue and the main loop are not
modelled. -/

namespace GC
namespace Fmm

/-- Squared distances from a face point to the corners A, B, C, fast_marching_method.cpp:164-175. -/
def dist2A (lAB _lBC lCA u v w : ℝ) : ℝ := lAB * lAB * (v * (1 - u)) + lCA * lCA * (w * (1 - u)) - lAB * lAB * v * w
def dist2B (lAB lBC lCA u v w : ℝ) : ℝ := lAB * lAB * (u * (1 - v)) + lBC * lBC * (w * (1 - v)) - lCA * lCA * u * w
def dist2C (_lAB lBC lCA u v w : ℝ) : ℝ := lCA * lCA * (u * (1 - w)) + lBC * lBC * (v * (1 - w)) - lBC * lBC * u * v

/-- The entries pushed for one source point with initial distance `x`, fast_marching_method.cpp:143-184: pairs of
distance and vertex. -/
noncomputable def seeds (m : Mesh) (len : ℕ → ℝ) (sg : ℕ → ℝ) (x : ℝ) : SPoint → List (ℝ × ℕ)
  | .vertex v => [(x, v)]
  | .edge e t =>
    let vA := m.heVertex (Mesh.eHalfedge e)
    let vB := m.tip (Mesh.eHalfedge e)
    let l := len e
    [(x + sg vA * t * l, vA), (x + sg vB * (1 - t) * l, vB)]
  | .face f c =>
    let he := m.fHalfedge f
    let vA := m.heVertex he
    let vB := m.heVertex (m.heNext he)
    let vC := m.heVertex (m.heNext (m.heNext he))
    let lAB := len (Mesh.heEdge he)
    let lBC := len (Mesh.heEdge (m.heNext he))
    let lCA := len (Mesh.heEdge (m.heNext (m.heNext he)))
    [(x + sg vA * Real.sqrt (dist2A lAB lBC lCA c.x c.y c.z), vA),
     (x + sg vB * Real.sqrt (dist2B lAB lBC lCA c.x c.y c.z), vB),
     (x + sg vC * Real.sqrt (dist2C lAB lBC lCA c.x c.y c.z), vC)]

open Classical in
/-- `eikonalDistanceSubroutine`, fast_marching_method.cpp:14-47. With a negative discriminant `t` is NaN and the comparisons
are false, with `cTheta = 0` the quotient `a / cTheta` is infinite; both are written out in the condition. -/
noncomputable def eikonal (a b theta dA dB sign : ℝ) : ℝ :=
  if theta ≤ Real.pi / 2 then
    let u := dB - dA
    let cTheta := Real.cos theta
    let sTheta2 := 1 - cTheta * cTheta
    let quadA := a * a + b * b - 2 * a * b * cTheta
    let quadB := 2 * b * u * (a * cTheta - b)
    let quadC := b * b * (u * u - a * a * sTheta2)
    let disc := quadB * quadB - 4 * quadA * quadC
    let sqrtVal := Real.sqrt disc
    let t := if sign > 0 then (-quadB + sqrtVal) / (2 * quadA) else (-quadB - sqrtVal) / (2 * quadA)
    let y := b * (t - u) / t
    if 0 ≤ disc ∧ u < sign * t ∧ a * cTheta < y ∧ (cTheta = 0 ∨ y < a / cTheta) then dA + t
    else min (b * sign + dA) (a * sign + dB)
  else
    let maxDist := max (sign * dA) (sign * dB)
    let c := Real.sqrt (a * a + b * b - 2 * a * b * Real.cos theta)
    let area := 0.5 * Real.sin theta * a * b
    let altitude := 2 * area / c
    let baseDist := maxDist + altitude
    min (min (b * sign + dA) (a * sign + dB)) (sign * baseDist)

end Fmm
end GC
