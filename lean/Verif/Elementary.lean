import Verif.Vec
import Verif.Intrinsic

/-! # Elementary geometry (include/geometrycentral/utilities/elementary_geometry.ipp)

Over the reals.  A division by zero gives an infinity or NaN in the code; here it is `none`, and comparisons with it are false, which is what both do in a test
`0 ≤ t ≤ 1`.  `triangleArea` and `layoutTriangleVertex` are in `Verif/Delaunay.lean`.  Not modelled: `triTriIntersection`. -/

namespace GC
open Classical

/-- `pointLineSegmentDistance` in the plane, elementary_geometry.ipp:35-41. -/
noncomputable def pointLineSegmentDistance2 (p lineA lineB : V2) : ℝ :=
  let len2 := (lineA.sub lineB).norm2
  if len2 = 0 then (lineA.sub p).norm
  else
    let t := clampR (V2.dot (p.sub lineA) (lineB.sub lineA) / len2) 0 1
    let proj := lineA.add ((lineB.sub lineA).smul t)
    (p.sub proj).norm

/-- `pointLineSegmentNeaestLocation`, elementary_geometry.ipp:86-91. -/
noncomputable def pointLineSegmentNearestLocation (p lineA lineB : V3) : ℝ :=
  let len2 := (lineA.sub lineB).norm2
  if len2 = 0 then 0 else clampR (V3.dot (p.sub lineA) (lineB.sub lineA) / len2) 0 1

/-- `pointLineSegmentDistance` in space, elementary_geometry.ipp:92-96. -/
noncomputable def pointLineSegmentDistance3 (p lineA lineB : V3) : ℝ :=
  let t := pointLineSegmentNearestLocation p lineA lineB
  let proj := lineA.add (V3.lmul t (lineB.sub lineA))
  (p.sub proj).norm

/-- Floating-point division; `none` is infinity or NaN. -/
noncomputable def fdiv (a b : ℝ) : Option ℝ := if b = 0 then none else some (a / b)

/-- `raySegmentIntersection`, elementary_geometry.ipp:57-69: `tRay` and `tLine`. -/
noncomputable def raySegmentIntersection (rayStart rayDir lineStart lineEnd : V2) : Option ℝ × Option ℝ :=
  let v1 := rayStart.sub lineStart
  let v2 := lineEnd.sub lineStart
  let v3 : V2 := ⟨-rayDir.y, rayDir.x⟩
  let cross21 := V2.cross v2 v1
  (fdiv cross21 (V2.dot v2 v3), fdiv (V2.dot v1 v3) (V2.dot v2 v3))

/-- `rayRayIntersection`, elementary_geometry.ipp:71-83. -/
noncomputable def rayRayIntersection (ray1Start ray1Dir ray2Start ray2Dir : V2) : Option ℝ × Option ℝ :=
  let v1 := ray1Start.sub ray2Start
  let v2 := ray2Dir
  let v3 : V2 := ⟨-ray1Dir.y, ray1Dir.x⟩
  let cross21 := V2.cross v2 v1
  (fdiv cross21 (V2.dot v2 v3), fdiv (V2.dot v1 v3) (V2.dot v2 v3))

/-- `0 ≤ t ≤ 1` for a floating-point number. -/
def unitRange (t : Option ℝ) : Prop := ∃ x, t = some x ∧ x ≥ 0 ∧ x ≤ 1

/-- `segmentSegmentIntersection`, elementary_geometry.ipp:44-55: `tA`, `tB`, `hit`.  With `lenA = 0` the direction is NaN, and so is everything after it. -/
noncomputable def segmentSegmentIntersection (pAStart pAEnd pBStart pBEnd : V2) : Option ℝ × Option ℝ × Bool :=
  let lenA := (pAEnd.sub pAStart).norm
  if lenA = 0 then (none, none, false)
  else
    let r := raySegmentIntersection pAStart ((pAEnd.sub pAStart).sdiv lenA) pBStart pBEnd
    let tA := r.1.map (· / lenA)
    (tA, r.2, decide (unitRange tA ∧ unitRange r.2))

/-- `tetFourthPoint`, elementary_geometry.ipp:98-137. -/
noncomputable def tetFourthPoint (a b c : V3) (Lad Lbd Lcd : ℝ) : V3 :=
  let e1 := (b.sub a).sdiv (b.sub a).norm
  let e2 := c.sub a
  let e2 := e2.sub (V3.lmul (V3.dot e2 e1) e1)
  let e2 := e2.sdiv e2.norm
  let e3 := V3.cross e1 e2
  let x2 := V3.dot (b.sub a) e1
  let x3 := V3.dot (c.sub a) e1
  let y3 := V3.dot (c.sub a) e2
  let x4 := (Lad * Lad - Lbd * Lbd + x2 * x2) / (2 * x2)
  let y4 := (Lad * Lad - Lcd * Lcd + x3 * x3 + y3 * y3 - 2 * x4 * x3) / (2 * y3)
  let z4 := Real.sqrt (max 0 (Lad * Lad - x4 * x4 - y4 * y4))
  let d1 := ((a.add (V3.lmul x4 e1)).add (V3.lmul y4 e2)).add (V3.lmul z4 e3)
  let d2 := ((a.add (V3.lmul x4 e1)).add (V3.lmul y4 e2)).sub (V3.lmul z4 e3)
  let vol1 := V3.dot (d1.sub a) (V3.cross (b.sub a) (c.sub a))
  if vol1 < 0 then d1 else d2

end GC
