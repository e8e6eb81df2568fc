import Verif.Loop
import Verif.SurfacePoint
import Mathlib.Data.List.Chain

/-! # Level curves (`marchingTriangles`)

src/surface/marching_triangles.cpp. Values are real numbers. The orientation test `dot(segNormal, gradient) > 0` needs the metric; it is an
arbitrary function `keepDir` of the face here. -/

namespace GC
namespace Marching

/-- `std::array<size_t, 2>`: indices of the two end nodes. -/
abbrev Seg := ℕ × ℕ

section
variable {α : Type} [DecidableEq α]

/-- The loop `for (i = 0; i < edgesToAdd.size(); i++) if (curveNodes[otherSeg[k]] == p) …; break;` (marching_triangles.cpp:29-38, 48-57).
`sel` picks `otherSeg[0]` or `otherSeg[1]`. Result: the index and the segment found. -/
def scan (nodes : List α) (sel : Seg → ℕ) (p : α) : List Seg → ℕ → Res (Option (ℕ × Seg))
  | [], _ => .ok none
  | otherSeg :: l, i =>
    match rd nodes (sel otherSeg) with
    | .error e => .error e
    | .ok q => if q = p then .ok (some (i, otherSeg)) else scan nodes sel p l (i + 1)

/-- `while (true)` at the front end, marching_triangles.cpp:26-40; returns `currCurve` and `edgesToAdd`. -/
def extendFront (nodes : List α) : ℕ → Seg → List Seg → List Seg → Res (List Seg × List Seg)
  | 0, _, _, _ => .error .hang
  | n + 1, currSeg, currCurve, edgesToAdd =>
    match rd nodes currSeg.2 with
    | .error e => .error e
    | .ok front =>
      match scan nodes Prod.fst front edgesToAdd 0 with
      | .error e => .error e
      | .ok none => .ok (currCurve, edgesToAdd)
      | .ok (some (i, otherSeg)) => extendFront nodes n otherSeg (currCurve ++ [otherSeg]) (edgesToAdd.eraseIdx i)

/-- `while (true)` at the back end, marching_triangles.cpp:44-59. -/
def extendBack (nodes : List α) : ℕ → Seg → List Seg → List Seg → Res (List Seg × List Seg)
  | 0, _, _, _ => .error .hang
  | n + 1, currSeg, currCurve, edgesToAdd =>
    match rd nodes currSeg.1 with
    | .error e => .error e
    | .ok back =>
      match scan nodes Prod.snd back edgesToAdd 0 with
      | .error e => .error e
      | .ok none => .ok (currCurve, edgesToAdd)
      | .ok (some (i, otherSeg)) => extendBack nodes n otherSeg (otherSeg :: currCurve) (edgesToAdd.eraseIdx i)

/-- The outer loop, marching_triangles.cpp:16-60. -/
def componentsAux (nodes : List α) (nSegs : ℕ) : ℕ → List Seg → List (List Seg) → Res (List (List Seg))
  | 0, _, _ => .error .hang
  | n + 1, edgesToAdd, curves =>
    match edgesToAdd.getLast? with
    | none => .ok curves
    | some startSeg =>
      match extendFront nodes (nSegs + 1) startSeg [startSeg] edgesToAdd.dropLast with
      | .error e => .error e
      | .ok (currCurve, edgesToAdd) =>
        match extendBack nodes (nSegs + 1) startSeg currCurve edgesToAdd with
        | .error e => .error e
        | .ok (currCurve, edgesToAdd) => componentsAux nodes nSegs n edgesToAdd (curves ++ [currCurve])

/-- `getCurveComponents`, marching_triangles.cpp:8-62. -/
def getCurveComponents (nodes : List α) (curveEdges : List Seg) : Res (List (List Seg)) :=
  componentsAux nodes curveEdges.length (curveEdges.length + 1) curveEdges []

/-- `std::find` and `push_back`, marching_triangles.cpp:100-108: the index of the node, added if new. -/
def intern (nodes : List α) (p : α) : List α × ℕ :=
  if nodes.idxOf p < nodes.length then (nodes, nodes.idxOf p) else (nodes ++ [p], (nodes ++ [p]).length - 1)

/-- The points of one curve, marching_triangles.cpp:119-124. -/
def curvePoints (nodes : List α) (comp : List Seg) : Res (List α) :=
  match comp.mapM (fun s => rd nodes s.1) with
  | .error e => .error e
  | .ok pts =>
    match rd comp (comp.length - 1) with
    | .error e => .error e
    | .ok s =>
      match rd nodes s.2 with
      | .error e => .error e
      | .ok p => .ok (pts ++ [p])
end

/-- The loop over the halfedges of a face that collects `hits`, marching_triangles.cpp:74-95 (without the gradient). If both ends have the
same value other than `isoval`, the quotient is infinite and passes no test. -/
noncomputable def hitsLoop (m : Mesh) (u : ℕ → ℝ) (isoval : ℝ) : List ℕ → List SPoint → List SPoint
  | [], hits => hits
  | he :: l, hits =>
    let e := Mesh.heEdge he
    let v0 := m.heVertex (Mesh.eHalfedge e)
    let v1 := m.tip (Mesh.eHalfedge e)
    let u0 := u v0
    let u1 := u v1
    let lB := min u0 u1
    let uB := max u0 u1
    if lB = uB ∧ lB = isoval then [SPoint.vertex v0, SPoint.vertex v1]
    else if lB = uB then hitsLoop m u isoval l hits
    else
      let t := (isoval - lB) / (uB - lB)
      let t := if u1 < u0 then 1 - t else t
      hitsLoop m u isoval l (if t ≤ 1 ∧ 0 ≤ t then hits ++ [SPoint.edge e t] else hits)

/-- `hits` of face `f`. -/
noncomputable def faceHits (m : Mesh) (u : ℕ → ℝ) (isoval : ℝ) (f : ℕ) : Res (List SPoint) :=
  match m.navFaceHalfedges f with
  | .error e => .error e
  | .ok l => .ok (hitsLoop m u isoval l [])

open Classical in
/-- One round of the face loop, marching_triangles.cpp:71-116; state `nodes`, `edges`. -/
noncomputable def faceStep (m : Mesh) (u : ℕ → ℝ) (isoval : ℝ) (keepDir : ℕ → Bool) (s : List SPoint × List Seg) (f : ℕ) :
    Res (List SPoint × List Seg) :=
  match faceHits m u isoval f with
  | .error e => .error e
  | .ok [h0, h1] =>
    let (nodes, i0) := intern s.1 h0
    let (nodes, i1) := intern nodes h1
    if keepDir f then .ok (nodes, s.2 ++ [(i0, i1)]) else .ok (nodes, s.2 ++ [(i1, i0)])
  | .ok _ => .ok s

open Classical in
/-- `marchingTriangles`, marching_triangles.cpp:63-126, over the given list of faces. -/
noncomputable def marchingTriangles (m : Mesh) (u : ℕ → ℝ) (isoval : ℝ) (keepDir : ℕ → Bool) (faces : List ℕ) : Res (List (List SPoint)) :=
  match faces.foldlM (faceStep m u isoval keepDir) ([], []) with
  | .error e => .error e
  | .ok (nodes, edges) =>
    match getCurveComponents nodes edges with
    | .error e => .error e
    | .ok components => components.mapM (fun c => curvePoints nodes c)

end Marching
end GC
