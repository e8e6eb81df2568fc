import Verif.Intrinsic

/-! # The energy matrix of stripe patterns (stripe_patterns.cpp)

The values of `computeOmega` at the edges, the one-form and the flag `crossesSheets`, are arguments. -/

namespace GC
open Classical Finset
namespace Mesh
variable (m : Mesh) (len : ℕ → ℝ)

/-- The cotan weight of an edge without the faces of nonzero branch index, stripe_patterns.cpp:67-74. -/
noncomputable def stripeWeight (cw : ℕ → ℝ) (branch : ℕ → ℤ) (e : ℕ) : ℝ :=
  (if branch (m.heFace (eHalfedge e)) = 0 then cw (eHalfedge e) else 0) +
    (if ¬ m.eIsBoundary e ∧ branch (m.heFace (twin (eHalfedge e))) = 0 then cw (twin (eHalfedge e)) else 0)

/-- `buildVertexEnergyMatrix`, stripe_patterns.cpp:51-116. -/
noncomputable def vertexEnergyMatrix (omega : ℕ → ℝ) (crosses : ℕ → Bool) (branch : ℕ → ℤ) : Res (ℕ → ℕ → ℝ) := do
  let ind ← m.getVertexIndices
  let cw ← m.halfedgeCotanWeights len
  let es ← m.rangeEdges
  let A ← setFromTriplets (2 * m.nV) (2 * m.nV) (es.flatMap fun e =>
    let w := m.stripeWeight cw branch e
    let i := 2 * ind (m.heVertex (eHalfedge e))
    let j := 2 * ind (m.heVertex (twin (eHalfedge e)))
    let rx := w * Real.cos (omega e)
    let ry := w * Real.sin (omega e)
    let sx := if crosses e then -rx else rx
    let sy := if crosses e then -ry else ry
    [(i, i, w), (i + 1, i + 1, w), (j, j, w), (j + 1, j + 1, w), (i, j, -rx), (i + 1, j, ry), (j, i, -rx), (j, i + 1, ry),
      (i, j + 1, -sy), (i + 1, j + 1, -sx), (j + 1, i, -sy), (j + 1, i + 1, -sx)])
  .ok fun i j => A i j + if i = j then 1e-4 else 0

end Mesh
end GC
