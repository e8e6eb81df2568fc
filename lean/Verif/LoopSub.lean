import Verif.MeshSplit
import Verif.MeshFlip
import Verif.Nav
import Verif.Stats
import Verif.Embedded

/-! # Loop subdivision (subdivide.cpp:182-252)

The `MutationManager` is one without constraints and policies, so that `mm.splitEdge(e, p)` is `splitEdgeTriangular` followed by a write to the
old positions (mutation_manager.cpp:153-191, see C44), which are not read again.  The flags are total functions that are `true` where nothing
has been written, and the range of edges keeps the end index it had when the loop began, as in `Verif.Subdivide`.  The final `compress()`
(see C19) and `refreshQuantities()` (see C31) are left out.  `GC_SAFETY_ASSERT` is taken as in a build with assertions, where it throws. -/

namespace GC

/-- The variables of the loop: the mesh, `newPositions`, `isOrigVert`, `isOrigEdge`, `toFlip`. -/
structure LoopSt (P : Type) where
  m : Mesh
  pos : ℕ → P
  origV : ℕ → Bool
  origE : ℕ → Bool
  toFlip : List ℕ

namespace Mesh
variable {P : Type}

/-- `Edge::otherVertex`, halfedge_element_types.ipp:300-306. -/
def otherVertex (m : Mesh) (e v : ℕ) : ℕ := if m.heVertex (eHalfedge e) = v then m.tip (eHalfedge e) else m.heVertex (eHalfedge e)

/-- The loop over the edges at the new vertex, subdivide.cpp:233-242. -/
def loopMark (m : Mesh) (w oldA oldB : ℕ) (s : LoopSt P) (e : ℕ) : LoopSt P :=
  let v := m.otherVertex e w
  { s with
    origE := Function.update s.origE e false
    toFlip := if s.origV v && v != oldA && v != oldB then s.toFlip ++ [e] else s.toFlip }

/-- One edge, subdivide.cpp:219-242. -/
def loopEdgeStep (splitP : ℕ → P) (s : LoopSt P) (e : ℕ) : Res (LoopSt P) :=
  if ¬ s.m.heLive (eHalfedge e) then .ok s
  else if !s.origE e then .ok s
  else do
    let oldA := s.m.tip (eHalfedge e)
    let oldB := s.m.heVertex (eHalfedge e)
    let (m', he) ← s.m.splitEdgeTriangular e
    let w := m'.heVertex he
    let es ← m'.navVertexEdges w
    .ok (es.foldl (loopMark m' w oldA oldB)
      { s with m := m', origV := Function.update s.origV w false, pos := Function.update s.pos w (splitP e) })

/-- The loop over the edges, subdivide.cpp:217-243. -/
def loopSplit (splitP : ℕ → P) (s : LoopSt P) : Res (LoopSt P) := (List.range s.m.nEFill).foldlM (loopEdgeStep splitP) s

/-- `mesh.flip(e)`, subdivide.cpp:245-247, with the default `preventSelfEdges = true` (surface_mesh.h:157). -/
def loopFlip (m : Mesh) (e : ℕ) : Res Mesh := (m.flip e true).map Prod.fst

/-- Both loops. -/
def loopRefine (m : Mesh) (pos splitP : ℕ → P) : Res (Mesh × (ℕ → P)) := do
  let s ← loopSplit splitP ⟨m, pos, fun _ => true, fun _ => true, []⟩
  let m' ← s.toFlip.foldlM loopFlip s.m
  .ok (m', s.pos)

/-- `newPositions` of the old vertices, subdivide.cpp:195-203. -/
noncomputable def vertexPointsLoop (m : Mesh) (pos : ℕ → V3) : Res (ℕ → V3) := do
  let vs ← m.rangeVertices
  assignM (fun _ => ⟨0, 0, 0⟩) (fun v => do
    let n ← m.vDegree v
    let u : ℝ := if n = 3 then 3 / 16 else 3 / (8 * n)
    let ws ← m.navVertexVertices v
    .ok (ws.foldl (fun (p : V3) w => p.add ((pos w).smul u)) ((pos v).smul (1 - n * u)))) vs

/-- `splitVertexPositions`, subdivide.cpp:205-214. -/
noncomputable def edgePointsLoop (m : Mesh) (pos : ℕ → V3) : Res (ℕ → V3) :=
  m.rangeEdges.map (assign (fun _ => ⟨0, 0, 0⟩) (fun e =>
    let h := eHalfedge e
    if m.eIsBoundary e then ((pos (m.heVertex h)).add (pos (m.tip h))).sdiv 2
    else (((pos (m.heVertex h)).add (pos (m.tip h))).smul (3 / 8)).add
      (((pos (m.heVertex (m.heNext (m.heNext h)))).add (pos (m.heVertex (m.heNext (m.heNext (twin h)))))).smul (1 / 8))))

/-- `loopSubdivide`, subdivide.cpp:187-252, without the last three lines. -/
noncomputable def loopSubdivide (m : Mesh) (pos : ℕ → V3) : Res (Mesh × (ℕ → V3)) := do
  let b ← m.isTriangular
  if !b then .error .throw
  else do
    let newPos ← m.vertexPointsLoop pos
    let splitP ← m.edgePointsLoop pos
    m.loopRefine newPos splitP

end Mesh
end GC
