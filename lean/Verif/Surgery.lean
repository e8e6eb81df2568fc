import Verif.MeshSeparateEdge
import Verif.Nav

/-! # Cutting a mesh along edges (surgery.cpp)

`origMesh.copy()` copies all arrays and counters (surface_mesh.cpp:594-640) and is left out. Halfedges of the original mesh are indices, `Halfedge()` is
`INV`. `parentHalfedges` and `considered` are total functions: their entries beyond the storage hold the default, as the callbacks put it there when
the storage grows. The queue is a list; the loop over it has a fuel. -/

namespace GC

/-- The variables of the loop: the mesh, `parentHalfedges`, `considered`, `queue`. -/
structure CutSt where
  m : Mesh
  parent : ℕ → ℕ
  considered : ℕ → Bool
  queue : List ℕ

namespace Mesh

/-- `MeshData::setDefault(false)`, mesh_data.ipp:264-281: entries behind the largest index in use get the new default. `es` are the edges in use. -/
def cutData (cut : ℕ → Bool) (es : List ℕ) (e : ℕ) : Bool := if es.foldl max 0 < e then false else cut e

/-- `topCount` and `botCount`, surgery.cpp:45-52. -/
def cutCount (m : Mesh) (cut : ℕ → Bool) (v : ℕ) : Res ℕ := (m.navVertexEdges v).map (fun es => (es.filter cut).length)

/-- The search for `firstEdge`, surgery.cpp:41-58; `none` is `Edge()`. -/
def cutLeaf (m : Mesh) (cut : ℕ → Bool) : List ℕ → Res (Option ℕ)
  | [] => .ok none
  | e :: es =>
    if cut e then do
      let topCount ← m.cutCount cut (m.heVertex (eHalfedge e))
      let botCount ← m.cutCount cut (m.heVertex (twin (eHalfedge e)))
      if topCount = 1 ∨ botCount = 1 then .ok (some e) else m.cutLeaf cut es
    else m.cutLeaf cut es

/-- The body of the loops over neighbors, surgery.cpp:82-85, 88-91. -/
def cutPush (cut : ℕ → Bool) (s : CutSt) (e : ℕ) : CutSt :=
  if cut e && !s.considered e then { s with considered := Function.update s.considered e true, queue := s.queue ++ [e] } else s

/-- One pass, surgery.cpp:66-92. -/
def cutStep (cut : ℕ → Bool) (s : CutSt) (e : ℕ) : Res CutSt := do
  let oldParent := s.parent (eHalfedge e)
  let oldParentT := s.parent (twin (eHalfedge e))
  let (m', newHe, newHeOpp) ← s.m.separateEdge e
  let parent := Function.update (Function.update s.parent newHe oldParent) newHeOpp oldParentT
  let es1 ← m'.navVertexEdges (m'.heVertex (eHalfedge e))
  let s1 := es1.foldl (cutPush cut) { s with m := m', parent := parent }
  let es2 ← m'.navVertexEdges (m'.heVertex (twin (eHalfedge e)))
  .ok (es2.foldl (cutPush cut) s1)

/-- The loop, surgery.cpp:65-93. -/
def cutLoop (cut : ℕ → Bool) : ℕ → CutSt → Res CutSt
  | 0, _ => .error .hang
  | fuel + 1, s => match s.queue with
    | [] => .ok s
    | e :: q => match cutStep cut { s with queue := q } e with
      | .error x => .error x
      | .ok s => cutLoop cut fuel s

/-- `cutAlongEdges`, surgery.cpp:8-101: the mesh and `parentHalfedges`. -/
def cutAlongEdges (m : Mesh) (cut : ℕ → Bool) (fuel : ℕ) : Res (Mesh × (ℕ → ℕ)) := do
  let parent := fun i => if i < m.nHe then i else INV
  let es ← m.rangeEdges
  let cut := cutData cut es
  match ← m.cutLeaf cut es with
  | none => .error .throw
  | some e => do
    let s ← cutLoop cut fuel ⟨m, parent, Function.update (fun _ => false) e true, [e]⟩
    let xs ← s.m.rangeExteriorHalfedges
    .ok (s.m, xs.foldl (fun p i => Function.update p i INV) s.parent)

end Mesh
end GC
