import Verif.Tangent
import Verif.Embedded
import Verif.BarycentricVector
import Verif.Props.Vec

/-! # Indices of direction fields (src/surface/direction_fields.cpp)

For meshes with implicit twins. `int` is unbounded; the conventions for real numbers are those of `Intrinsic`. -/

namespace GC
open Classical BVec

/-- `Vector2::pow(double)` at an integer, vector2.ipp:109-113: `std::pow` of complex numbers. -/
noncomputable def V2.powInt (u : V2) (n : ℤ) : V2 := ⟨(u.toC ^ n).re, (u.toC ^ n).im⟩

/-- `std::round`: half-integers are rounded away from zero. -/
noncomputable def stdRound (x : ℝ) : ℤ := if 0 ≤ x then ⌊x + 1 / 2⌋ else ⌈x - 1 / 2⌉

namespace Mesh
variable (m : Mesh) (len : ℕ → ℝ)

/-- `computeFaceIndex`, direction_fields.cpp:407-448. -/
noncomputable def computeFaceIndex (directionField : ℕ → V2) (nSym : ℤ) : Res (ℕ → ℤ) := do
  let tr ← m.transportVectorsAlongHalfedge len
  let K ← m.faceGaussianCurvatures len
  let fs ← m.rangeFaces
  assignM (fun _ => 0) (fun f => do
    let totalRot := K f * nSym
    let hs ← m.navFaceHalfedges f
    let totalRot := hs.foldl (fun totalRot he =>
      if m.heIsInterior (twin he) then
        let x0 := directionField (m.heVertex he)
        let x1 := directionField (m.heVertex (twin he))
        let rot := (tr he).powInt nSym
        let theta0 := (rot.mul x0).arg
        let theta1 := x1.arg
        let deltaTheta := regularizeAngle (theta1 - theta0 + Real.pi) - Real.pi
        totalRot + deltaTheta
      else totalRot) totalRot
    .ok (stdRound (totalRot / (2 * Real.pi)))) fs

/-- `computeVertexIndex`, direction_fields.cpp:451-490. -/
noncomputable def computeVertexIndex (nan : V2) (directionField : ℕ → V2) (nSym : ℤ) : Res (ℕ → ℤ) := do
  let tr ← m.transportVectorsAcrossHalfedge len nan
  let K ← m.vertexGaussianCurvatures len
  let vs ← m.rangeVertices
  assignM (fun _ => 0) (fun v => do
    let totalRot := K v * nSym
    let hs ← if ¬ m.vIsBoundary v then m.navIncoming v else .ok []
    let totalRot := hs.foldl (fun totalRot he =>
      let x0 := directionField (m.heFace he)
      let x1 := directionField (m.heFace (twin he))
      let rot := (tr he).powInt nSym
      let deltaTheta := regularizeAngle (x1.arg - (rot.mul x0).arg + Real.pi) - Real.pi
      totalRot + deltaTheta) totalRot
    .ok (stdRound (totalRot / (2 * Real.pi)))) vs

end Mesh
end GC
