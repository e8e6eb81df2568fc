import Verif.Nav
import Mathlib.Data.Real.Basic

/-! # Intrinsic mollification

Edge lengths are real numbers. -/

namespace GC
namespace Mesh
open Classical

/-- The loop computing `mollifyEps`, intrinsic_mollification.cpp:23-31, over the halfedges `hs`. -/
noncomputable def mollifyEps (m : Mesh) (len : ℕ → ℝ) (δ : ℝ) (hs : List ℕ) : ℝ :=
  hs.foldl (fun eps he =>
    let lA := len (heEdge he)
    let lB := len (heEdge (m.heNext he))
    let lC := len (heEdge (m.heNext (m.heNext he)))
    max eps (lC - lA - lB + δ)) 0

/-- `mollifyIntrinsicAbsolute`, intrinsic_mollification.cpp:20-38. -/
noncomputable def mollifyAbsolute (m : Mesh) (len : ℕ → ℝ) (δ : ℝ) : Res (ℕ → ℝ) :=
  match m.rangeInteriorHalfedges with
  | .error e => .error e
  | .ok hs =>
    let eps := m.mollifyEps len δ hs
    match m.rangeEdges with
    | .error e => .error e
    | .ok es => .ok (es.foldl (fun l e => fun i => if i = e then l i + eps else l i) len)

/-- `mollifyIntrinsic`, intrinsic_mollification.cpp:7-18. -/
noncomputable def mollify (m : Mesh) (len : ℕ → ℝ) (factor : ℝ) : Res (ℕ → ℝ) :=
  match m.rangeEdges with
  | .error e => .error e
  | .ok es => m.mollifyAbsolute len (es.foldl (fun s e => s + len e) 0 / m.nE * factor)

end Mesh
end GC
