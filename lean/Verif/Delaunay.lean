import Verif.Nav
import Verif.MeshFlip
import Verif.Vec

/-! # Intrinsic Delaunay flipping

`flipToDelaunay` of `simple_idt.cpp` and `IntrinsicTriangulation::flipToDelaunay` with the signpost
`flipEdgeIfNotDelaunay`. Meshes use implicit twins (`ManifoldSurfaceMesh`). Lengths are real numbers, so the
`isfinite` tests never fire and are left out. The `GC_SAFETY_ASSERT`s that faces are triangular are left out;
the theorems assume triangles. The signpost angles, callbacks and cached quantities are not modelled. -/

namespace GC
open Classical

/-- `triangleArea`, elementary_geometry.ipp:7-12. -/
noncomputable def triangleArea (lAB lBC lCA : ℝ) : ℝ :=
  let s := (lAB + lBC + lCA) / 2
  Real.sqrt (max 0 (s * (s - lAB) * (s - lBC) * (s - lCA)))

/-- `layoutTriangleVertex`, elementary_geometry.ipp:18-33. -/
noncomputable def layoutTriangleVertex (pA pB : V2) (lBC lCA : ℝ) : V2 :=
  let lAB := (pB.sub pA).norm
  let tArea := triangleArea lAB lBC lCA
  let h := 2 * tArea / lAB
  let w := (lAB * lAB - lBC * lBC + lCA * lCA) / (2 * lAB)
  let vABn := (pB.sub pA).sdiv lAB
  let vABnPerp : V2 := ⟨-vABn.y, vABn.x⟩
  (pA.add (vABn.smul w)).add (vABnPerp.smul h)

namespace Mesh

/-- `layoutDiamond`, intrinsic_triangulation.ipp:42-75, the same computation as in `flippedEdgeLen`,
simple_idt.cpp:15-48 (Euclidean). The vertices `p0, p1, p2, p3`. -/
noncomputable def layoutDiamond (m : Mesh) (len : ℕ → ℝ) (he : ℕ) : V2 × V2 × V2 × V2 :=
  let a1 := m.heNext he
  let a2 := m.heNext a1
  let b0 := twin he
  let b1 := m.heNext b0
  let b2 := m.heNext b1
  let l01 := len (heEdge a1)
  let l12 := len (heEdge a2)
  let l23 := len (heEdge b1)
  let l30 := len (heEdge b2)
  let l02 := len (heEdge he)
  let p3 : V2 := ⟨0, 0⟩
  let p0 : V2 := ⟨l30, 0⟩
  let p2 := layoutTriangleVertex p3 p0 l02 l23
  let p1 := layoutTriangleVertex p2 p0 l01 l12
  (p0, p1, p2, p3)

/-- The new length of a Euclidean flip, simple_idt.cpp:41-50, signpost_intrinsic_triangulation.cpp:289-292. -/
noncomputable def euclideanFlipLen (m : Mesh) (len : ℕ → ℝ) (he : ℕ) : ℝ :=
  let p := m.layoutDiamond len he
  (p.2.1.sub p.2.2.2).norm

/-- The new length of a Ptolemaic flip, simple_idt.cpp:15-40. -/
noncomputable def hyperbolicFlipLen (m : Mesh) (len : ℕ → ℝ) (he : ℕ) : ℝ :=
  let a1 := m.heNext he
  let a2 := m.heNext a1
  let b1 := m.heNext (twin he)
  let b2 := m.heNext b1
  (len (heEdge a1) * len (heEdge b1) + len (heEdge a2) * len (heEdge b2)) / len (heEdge he)

/-- `area`, simple_idt.cpp:56-64; `EdgeLengthGeometry::faceArea`, edge_length_geometry.ipp:9-27. -/
noncomputable def faceArea (m : Mesh) (len : ℕ → ℝ) (f : ℕ) : ℝ :=
  let h := m.fHalfedge f
  triangleArea (len (heEdge h)) (len (heEdge (m.heNext h))) (len (heEdge (m.heNext (m.heNext h))))

/-- `halfedgeCotanWeight`, simple_idt.cpp:66-82, edge_length_geometry.ipp:59-78. -/
noncomputable def halfedgeCotanWeight (m : Mesh) (len : ℕ → ℝ) (he : ℕ) : ℝ :=
  if m.heIsInterior he then
    let lij := len (heEdge he)
    let ljk := len (heEdge (m.heNext he))
    let lki := len (heEdge (m.heNext (m.heNext he)))
    (-lij * lij + ljk * ljk + lki * lki) / (4 * m.faceArea len (m.heFace he)) / 2
  else 0

/-- `edgeCotanWeight`, simple_idt.cpp:84-86, edge_length_geometry.ipp:95-101 (there as a loop over the interior
halfedges of the edge). -/
noncomputable def edgeCotanWeight (m : Mesh) (len : ℕ → ℝ) (e : ℕ) : ℝ :=
  m.halfedgeCotanWeight len (eHalfedge e) + m.halfedgeCotanWeight len (twin (eHalfedge e))

/-- One round of the loop in `shouldFlipEdge`, simple_idt.cpp:97-104. -/
noncomputable def hyperbolicScore1 (m : Mesh) (len : ℕ → ℝ) (he : ℕ) : ℝ :=
  let lA := len (heEdge he)
  let lB := len (heEdge (m.heNext he))
  let lC := len (heEdge (m.heNext (m.heNext he)))
  0 - lA / (lB * lC) + lB / (lC * lA) + lC / (lA * lB)

/-- `score`, simple_idt.cpp:95-105. -/
noncomputable def hyperbolicScore (m : Mesh) (len : ℕ → ℝ) (e : ℕ) : ℝ :=
  m.hyperbolicScore1 len (eHalfedge e) + m.hyperbolicScore1 len (twin (eHalfedge e))

/-- `FlipType`, simple_idt.h:15. -/
inductive FlipType where
  | euclidean
  | hyperbolic

/-- `shouldFlipEdge`, simple_idt.cpp:89-117. -/
noncomputable def shouldFlipEdge (m : Mesh) (len : ℕ → ℝ) (t : FlipType) (eps : ℝ) (e : ℕ) : Bool :=
  if m.eIsBoundary e then false else
  match t with
  | .hyperbolic => decide (m.hyperbolicScore len e < -eps)
  | .euclidean => decide (m.edgeCotanWeight len e < -eps)

/-- The result of an attempt to flip: mesh, lengths, whether it was done. -/
abbrev FlipRes := Res (Mesh × (ℕ → ℝ) × Bool)

/-- The combinatorial flip and the assignment of the new length, simple_idt.cpp:139-150,
signpost_intrinsic_triangulation.cpp:301-309. -/
noncomputable def flipWith (m : Mesh) (len : ℕ → ℝ) (e : ℕ) (newLen : ℝ) : FlipRes :=
  match m.flip e false with
  | .error x => .error x
  | .ok (m1, false) => .ok (m1, len, false)
  | .ok (m1, true) => .ok (m1, fun i => if i = e then newLen else len i, true)

/-- `flipEdgeIfNotDelaunay`, simple_idt.cpp:119-151. Every edge of a manifold mesh `isManifold()`. -/
noncomputable def simpleFlip (t : FlipType) (eps : ℝ) (m : Mesh) (len : ℕ → ℝ) (e : ℕ) : FlipRes :=
  if m.eIsBoundary e then .error .throw else
  if ¬ m.shouldFlipEdge len t eps e then .ok (m, len, false) else
  let newLen := match t with
    | .hyperbolic => m.hyperbolicFlipLen len (eHalfedge e)
    | .euclidean => m.euclideanFlipLen len (eHalfedge e)
  m.flipWith len e newLen

/-- `IntrinsicTriangulation::isFixed`, intrinsic_triangulation.ipp:8-12; `marked` is `markedEdges`, constantly
false if none were set. -/
def isFixed (m : Mesh) (marked : ℕ → Bool) (e : ℕ) : Prop := m.eIsBoundary e ∨ marked e = true

/-- `SignpostIntrinsicTriangulation::flipEdgeIfNotDelaunay`, signpost_intrinsic_triangulation.cpp:278-322. -/
noncomputable def signpostFlip (marked : ℕ → Bool) (eps : ℝ) (m : Mesh) (len : ℕ → ℝ) (e : ℕ) : FlipRes :=
  if m.isFixed marked e then .ok (m, len, false) else
  if m.edgeCotanWeight len e > -eps then .ok (m, len, false) else
  m.flipWith len e (m.euclideanFlipLen len (eHalfedge e))

/-- `SignpostIntrinsicTriangulation::flipEdgeIfPossible`, signpost_intrinsic_triangulation.cpp:324-370. -/
noncomputable def signpostFlipIfPossible (marked : ℕ → Bool) (eps : ℝ) (m : Mesh) (len : ℕ → ℝ) (e : ℕ) : FlipRes :=
  if m.isFixed marked e then .ok (m, len, false) else
  let p := m.layoutDiamond len (eHalfedge e)
  let A1 := V2.cross (p.2.1.sub p.1) (p.2.2.2.sub p.1)
  let A2 := V2.cross (p.2.2.2.sub p.2.2.1) (p.2.1.sub p.2.2.1)
  let areaEPS := eps * (A1 + A2)
  if A1 < areaEPS ∨ A2 < areaEPS then .ok (m, len, false) else
  m.flipWith len e ((p.2.1.sub p.2.2.2).norm)

/-- The loop over `neighEdges`, simple_idt.cpp:182-187, intrinsic_triangulation.cpp:360-365. -/
def pushEdges : List ℕ → List ℕ → (ℕ → Bool) → List ℕ × (ℕ → Bool)
  | [], q, inQ => (q, inQ)
  | e :: es, q, inQ =>
    if inQ e then pushEdges es q inQ
    else pushEdges es (q ++ [e]) (fun i => if i = e then true else inQ i)

/-- `neighEdges`, simple_idt.cpp:177-181, intrinsic_triangulation.cpp:355-359. -/
def neighEdges (m : Mesh) (e : ℕ) : List ℕ :=
  let heN := m.heNext (eHalfedge e)
  let heTN := m.heNext (twin (eHalfedge e))
  [heEdge heN, heEdge (m.heNext heN), heEdge heTN, heEdge (m.heNext heTN)]

/-- The while loop, simple_idt.cpp:160-188, intrinsic_triangulation.cpp:339-366, for an arbitrary
`flipEdgeIfNotDelaunay`. The deque is a list with its front first; the last argument counts the flips. -/
def delaunayLoop (step : Mesh → (ℕ → ℝ) → ℕ → FlipRes) :
    ℕ → Mesh → (ℕ → ℝ) → List ℕ → (ℕ → Bool) → ℕ → Res (Mesh × (ℕ → ℝ) × ℕ)
  | 0, _, _, _, _, _ => .error .hang
  | _ + 1, m, len, [], _, k => .ok (m, len, k)
  | n + 1, m, len, e :: q, inQ, k =>
    let inQ1 : ℕ → Bool := fun i => if i = e then false else inQ i
    match step m len e with
    | .error x => .error x
    | .ok (m1, len1, false) => delaunayLoop step n m1 len1 q inQ1 k
    | .ok (m1, len1, true) =>
      let p := pushEdges (m1.neighEdges e) q inQ1
      delaunayLoop step n m1 len1 p.1 p.2 (k + 1)

/-- The set-up of the queue, simple_idt.cpp:153-157, intrinsic_triangulation.cpp:332-336, and the loop. -/
def delaunayRun (step : Mesh → (ℕ → ℝ) → ℕ → FlipRes) (fuel : ℕ) (m : Mesh) (len : ℕ → ℝ) :
    Res (Mesh × (ℕ → ℝ) × ℕ) :=
  match m.rangeEdges with
  | .error x => .error x
  | .ok es => delaunayLoop step fuel m len es (fun _ => true) 0

/-- `flipToDelaunay`, simple_idt.cpp:11-191. -/
noncomputable def flipToDelaunay (fuel : ℕ) (m : Mesh) (len : ℕ → ℝ) (t : FlipType) (eps : ℝ) :
    Res (Mesh × (ℕ → ℝ) × ℕ) := delaunayRun (simpleFlip t eps) fuel m len

/-- `IntrinsicTriangulation::flipToDelaunay`, intrinsic_triangulation.cpp:330-369, for signposts. -/
noncomputable def signpostFlipToDelaunay (fuel : ℕ) (m : Mesh) (len : ℕ → ℝ) (marked : ℕ → Bool) (eps : ℝ) :
    Res (Mesh × (ℕ → ℝ) × ℕ) := delaunayRun (signpostFlip marked eps) fuel m len

/-- `IntrinsicTriangulation::isDelaunay()`, intrinsic_triangulation.cpp:96-110. -/
noncomputable def isDelaunay (m : Mesh) (len : ℕ → ℝ) (marked : ℕ → Bool) (eps : ℝ) : Res Bool :=
  match m.rangeEdges with
  | .error x => .error x
  | .ok es => .ok (es.all fun e => decide (¬ (¬ m.isFixed marked e ∧ m.edgeCotanWeight len e < -eps)))

end Mesh
end GC
