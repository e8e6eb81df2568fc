import Verif.GMeshBuild
import Verif.DisjointSets

/-! # Separating non-manifold vertices of a general mesh (src/surface/surface_mesh.cpp:980-1035)

A corner has the index of its halfedge.  Default elements in `parents` and `vertexEntries` are `none`. -/

namespace GC.GMesh

/-- `getNewVertex`, surface_mesh.cpp:1371-1403. -/
def getNewVertex (m : GMesh) : Res (GMesh × ℕ) :=
  let cap := if m.nVFill < m.nVCap then m.nVCap else m.nVCap * 2
  if INV ≤ cap then .error .oom
  else if cap ≤ m.nVFill then .error .ub
  else .ok ({ m with nVCap := cap, nVFill := m.nVFill + 1, nV := m.nV + 1 }, m.nVFill)

/-- Body of the loop over the edges, surface_mesh.cpp:986-1000. -/
def sepMerge (m : GMesh) (djSet : DS) (e : ℕ) : Res DS :=
  if m.isBoundary e then .ok djSet
  else if !m.isManifold e then .error .throw
  else
    let heA := m.eHalfedge e
    let heB := m.heSibling heA
    if m.heOrient heA = m.heOrient heB then do
      let djSet ← djSet.merge heA heB
      djSet.merge (m.heNext heA) (m.heNext heB)
    else do
      let djSet ← djSet.merge (m.heNext heA) heB
      djSet.merge heA (m.heNext heB)

/-- Mesh, `djSet`, `vertexEntries`, `parents`, `baseVertexUsed`. -/
structure SepV where
  m : GMesh
  dj : DS
  entry : ℕ → Option ℕ
  parents : ℕ → Option ℕ
  used : ℕ → Bool

/-- `vertexEntries[iComp]`, made if needed, surface_mesh.cpp:1012-1022.  The array has
`indMax = nHalfedgesFillCount` entries. -/
def sepEntry (s : SepV) (iComp origV : ℕ) : Res (SepV × ℕ) :=
  if s.m.nHeFill ≤ iComp then .error .ub
  else match s.entry iComp with
  | some v => .ok (s, v)
  | none =>
    if s.used origV then do
      let (m, newV) ← s.m.getNewVertex
      .ok ({ s with m := m, entry := fun r => if r = iComp then some newV else s.entry r, parents := fun v => if v = newV then some origV else s.parents v }, newV)
    else
      .ok ({ s with entry := fun r => if r = iComp then some origV else s.entry r, parents := fun v => if v = origV then some origV else s.parents v,
                    used := fun v => if v = origV then true else s.used v }, origV)

/-- Body of the loop over the corners, surface_mesh.cpp:1008-1028. -/
def sepCorner (s : SepV) (c : ℕ) : Res SepV := do
  let (dj, iComp) ← s.dj.find c
  let (s, targetV) ← sepEntry { s with dj := dj } iComp (s.m.heVertex c)
  .ok { s with m := { s.m with heVertex := upd s.m.heVertex c targetV, vHalfedge := upd s.m.vHalfedge targetV c } }

/-- `separateNonmanifoldVertices`, surface_mesh.cpp:980-1035.  Returns the mesh and `parents`. -/
def separateNonmanifoldVertices (m : GMesh) : Res (GMesh × (ℕ → Option ℕ)) := do
  let dj ← (List.range m.nEFill).foldlM (fun d e => if m.eHalfedge e = INV then .ok d else sepMerge m d e) (DS.init m.nHeFill)
  let s ← (List.range m.nHeFill).foldlM (fun s c => if s.m.heNext c = INV then .ok s else sepCorner s c)
    (⟨m, dj, fun _ => none, fun _ => none, fun _ => false⟩ : SepV)
  .ok (s.m.initNeighbors, s.parents)

end GC.GMesh
