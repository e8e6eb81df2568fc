import Verif.Ring

/-!
# General surface meshes (explicit siblings)

Model of a `SurfaceMesh` with `useImplicitTwinFlag == false` (`surface_mesh.h:251-338`) and of the
operations that exist only for it.  As in `Verif.Mesh`: arrays are total functions, allocation fails
(`Err.oom`) before a capacity reaches `INVALID_IND`, callbacks, `modificationTick` and
`isCompressedFlag` are left out.  Boundary loops are left out as well: the polygon constructor of a
general mesh creates none, and neither does any operation below, so every halfedge is interior.
-/

namespace GC

/-- State of a general `SurfaceMesh`: the arrays and counters of surface_mesh.h:251-338; `rin`, `rout`
are the two vertex lists of each vertex (`heVertIn…Arr`, `heVertOut…Arr`). -/
structure GMesh where
  heNext : ℕ → ℕ
  heVertex : ℕ → ℕ
  heFace : ℕ → ℕ
  heSibling : ℕ → ℕ
  heEdge : ℕ → ℕ
  heOrient : ℕ → Bool
  vHalfedge : ℕ → ℕ
  fHalfedge : ℕ → ℕ
  eHalfedge : ℕ → ℕ
  rin : Ring
  rout : Ring
  nHe : ℕ
  nInt : ℕ
  nHeFill : ℕ
  nHeCap : ℕ
  nV : ℕ
  nVFill : ℕ
  nVCap : ℕ
  nE : ℕ
  nEFill : ℕ
  nECap : ℕ
  nF : ℕ
  nFFill : ℕ
  nFCap : ℕ

namespace GMesh

/-- `he.tipVertex()`, halfedge_element_types.ipp:224. -/
def tip (m : GMesh) (h : ℕ) : ℕ := m.heVertex (m.heNext h)

/-- `f.adjacentHalfedges()`: from `f.halfedge()` along `next()`. -/
def faceHalfedges (m : GMesh) (f : ℕ) : Res (List ℕ) := orbitList m.heNext (m.fHalfedge f) m.nHeFill

/-- `e.adjacentHalfedges()` (and `adjacentInteriorHalfedges()`, all halfedges being interior): from
`e.halfedge()` along `sibling()`. -/
def edgeHalfedges (m : GMesh) (e : ℕ) : Res (List ℕ) := orbitList m.heSibling (m.eHalfedge e) m.nHeFill

/-- `v.outgoingHalfedges()` on a general mesh (halfedge_element_types.ipp:110-112, 226). -/
def outgoing (m : GMesh) (v : ℕ) : Res (List ℕ) := m.rout.iter (m.vHalfedge v) m.nHeFill

/-- `v.incomingHalfedges()` on a general mesh (halfedge_element_types.ipp:107-109, 227): starts at
`halfedge().prevOrbitFace()`, which walks around the face (lines 235-243). -/
def incoming (m : GMesh) (v : ℕ) : Res (List ℕ) := do
  let h ← walkPrev m.heNext m.heNext (m.vHalfedge v) m.nHeFill (m.vHalfedge v)
  m.rin.iter h m.nHeFill

/-- `Edge::isBoundary`, halfedge_element_types.ipp:330-336. -/
def isBoundary (m : GMesh) (e : ℕ) : Bool := m.heSibling (m.eHalfedge e) == m.eHalfedge e

/-- `Edge::isManifold`, halfedge_element_types.ipp:337. -/
def isManifold (m : GMesh) (e : ℕ) : Bool :=
  m.heSibling (m.heSibling (m.eHalfedge e)) == m.eHalfedge e || m.heSibling (m.eHalfedge e) == m.eHalfedge e

/-- `Edge::isOriented`, halfedge_element_types.ipp:338-343. -/
def isOriented (m : GMesh) (e : ℕ) : Bool :=
  let he := m.eHalfedge e
  if he = m.heSibling he then true
  else if m.heSibling (m.heSibling he) ≠ he then false
  else m.heOrient he != m.heOrient (m.heSibling he)

/-- `removeFromVertexLists`, surface_mesh.cpp:699-720. -/
def removeFromVertexLists (m : GMesh) (i : ℕ) : GMesh :=
  { m with rin := m.rin.remove i (m.tip i), rout := m.rout.remove i (m.heVertex i) }

/-- `addToVertexLists`, surface_mesh.cpp:721-761. -/
def addToVertexLists (m : GMesh) (i : ℕ) : GMesh :=
  { m with rin := m.rin.add i (m.tip i), rout := m.rout.add i (m.heVertex i) }

/-- `removeFromSiblingList`, surface_mesh.cpp:763-771. -/
def removeFromSiblingList (m : GMesh) (he : ℕ) : Res GMesh := do
  let nxt := m.heSibling he
  let prv ← walkPrev m.heSibling m.heSibling he m.nHeFill nxt
  .ok { m with heSibling := upd m.heSibling prv nxt }

/-- The updates in the loop of `invertOrientation`, surface_mesh.cpp:788-794; `prev = none` is the
default halfedge of the first round. -/
def invertStep (m : GMesh) (curr nextVert : ℕ) (prev : Option ℕ) : GMesh :=
  { m with
    heVertex := upd m.heVertex curr nextVert
    vHalfedge := upd m.vHalfedge nextVert curr
    heOrient := fun h => if h = curr then !m.heOrient curr else m.heOrient h
    heNext := match prev with
      | none => m.heNext
      | some p => upd m.heNext curr p }

/-- The loop of `invertOrientation`, surface_mesh.cpp:779-799.  Returns the last halfedge visited. -/
def invertLoop (first firstVert : ℕ) : ℕ → GMesh → ℕ → Option ℕ → Res (GMesh × ℕ)
  | 0, _, _, _ => .error .hang
  | n + 1, m, curr, prev =>
    let nextHe := m.heNext curr
    let nextVert := if nextHe = first then firstVert else m.heVertex nextHe
    let m' := m.invertStep curr nextVert prev
    if nextHe = first then .ok (m', curr) else invertLoop first firstVert n m' nextHe (some curr)

/-- `invertOrientation`, surface_mesh.cpp:773-804.  The lists are iterated while the vertex lists
change, which does not affect the iteration over `next()`. -/
def invertOrientation (m : GMesh) (f : ℕ) : Res GMesh := do
  let hs ← m.faceHalfedges f
  let m := hs.foldl removeFromVertexLists m
  let first := m.fHalfedge f
  let (m, last) ← invertLoop first (m.heVertex first) m.nHeFill m first none
  let m := { m with heNext := upd m.heNext first last }
  let hs ← m.faceHalfedges f
  .ok (hs.foldl addToVertexLists m)

/-- `getNewFace`, surface_mesh.cpp:1567-1584, and `expandFaceStorage`, 1605-1637, without boundary
loops. -/
def getNewFace (m : GMesh) : Res (GMesh × ℕ) :=
  let cap := if m.nFFill < m.nFCap then m.nFCap else m.nFCap * 2
  if INV ≤ cap then .error .oom
  else if cap ≤ m.nFFill then .error .ub
  else .ok ({ m with nFCap := cap, nF := m.nF + 1, nFFill := m.nFFill + 1 }, m.nFFill)

/-- `getNewHalfedge`, surface_mesh.cpp:1405-1450. -/
def getNewHalfedge (m : GMesh) (isInterior : Bool) : Res (GMesh × ℕ) :=
  let cap := if m.nHeFill < m.nHeCap then m.nHeCap else max (m.nHeCap * 2) 1
  if INV ≤ cap then .error .oom
  else if cap ≤ m.nHeFill then .error .ub
  else .ok ({ m with
    nHeCap := cap, nHeFill := m.nHeFill + 1, nHe := m.nHe + 1,
    nInt := if isInterior then m.nInt + 1 else m.nInt }, m.nHeFill)

/-- `getNewEdge`, surface_mesh.cpp:1452-1484. -/
def getNewEdge (m : GMesh) : Res (GMesh × ℕ) :=
  let cap := if m.nEFill < m.nECap then m.nECap else max (m.nECap * 2) 1
  if INV ≤ cap then .error .oom
  else if cap ≤ m.nEFill then .error .ub
  else .ok ({ m with nECap := cap, nEFill := m.nEFill + 1, nE := m.nE + 1 }, m.nEFill)

/-- Body of the loop of `duplicateFace`, surface_mesh.cpp:814-837; state = mesh and previous new
halfedge. -/
def dupStep (newFace : ℕ) (s : GMesh × Option ℕ) (oldHe : ℕ) : Res (GMesh × Option ℕ) := do
  let (m, newHe) ← s.1.getNewHalfedge false
  let m := match s.2 with
    | none => { m with fHalfedge := upd m.fHalfedge newFace newHe }
    | some p => { m with heNext := upd m.heNext p newHe }
  let m := { m with
    heVertex := upd m.heVertex newHe (m.heVertex oldHe)
    heEdge := upd m.heEdge newHe (m.heEdge oldHe)
    heOrient := fun h => if h = newHe then m.heOrient oldHe else m.heOrient h
    heFace := upd m.heFace newHe newFace }
  let sibN := m.heSibling oldHe
  .ok ({ m with heSibling := upd (upd m.heSibling oldHe newHe) newHe sibN }, some newHe)

/-- `duplicateFace`, surface_mesh.cpp:806-846.  `firstNewHe` is `newFace.halfedge()`. -/
def duplicateFace (m : GMesh) (f : ℕ) : Res (GMesh × ℕ) := do
  let (m, newFace) ← m.getNewFace
  let hs ← m.faceHalfedges f
  let (m, prev) ← hs.foldlM (dupStep newFace) (m, none)
  match prev with
  | none => .error .ub
  | some p =>
    let m := { m with heNext := upd m.heNext p (m.fHalfedge newFace) }
    let hs ← m.faceHalfedges newFace
    .ok (hs.foldl addToVertexLists m, newFace)

/-- `separateToNewEdge`, surface_mesh.cpp:930-964. -/
def separateToNewEdge (m : GMesh) (heA heB : ℕ) : Res (GMesh × ℕ) := do
  if m.heEdge heA ≠ m.heEdge heB then .error .throw
  else if heA = heB then .error .throw
  else
    let e := m.heEdge heA
    let l ← m.edgeHalfedges e
    if l.length ≤ 2 then .ok (m, e)
    else
      let (m, newE) ← m.getNewEdge
      let l ← m.edgeHalfedges e
      let m := match l.find? (fun he => he ≠ heA ∧ he ≠ heB) with
        | some he => { m with eHalfedge := upd m.eHalfedge e he }
        | none => m
      let m ← m.removeFromSiblingList heA
      let m ← m.removeFromSiblingList heB
      .ok ({ m with
        eHalfedge := upd m.eHalfedge newE heA
        heEdge := upd (upd m.heEdge heA newE) heB newE
        heSibling := upd (upd m.heSibling heA heB) heB heA }, newE)

/-- The `while` loop of `separateNonmanifoldEdges`, surface_mesh.cpp:969-973. -/
def separateLoop (e : ℕ) : ℕ → GMesh → Res GMesh
  | 0, _ => .error .hang
  | n + 1, m =>
    if m.isManifold e then .ok m
    else do
      let heA := m.eHalfedge e
      let (m, _) ← m.separateToNewEdge heA (m.heSibling heA)
      separateLoop e n m

/-- `separateNonmanifoldEdges`, surface_mesh.cpp:966-977.  The range of edges is fixed before the loop;
dead edges are skipped when they are reached. -/
def separateNonmanifoldEdges (m : GMesh) : Res GMesh :=
  (List.range m.nEFill).foldlM (fun m e => if m.eHalfedge e = INV then .ok m else separateLoop e (m.nHeFill + 1) m) m

/-- State of `greedilyOrientFaces`: mesh, `toProcess`, `processed`. -/
structure Greedy where
  m : GMesh
  stack : List ℕ
  done : ℕ → Bool

/-- Body of the innermost loop of `greedilyOrientFaces`, surface_mesh.cpp:1053-1064. -/
def greedyHe (s : Greedy) (he : ℕ) : Res Greedy :=
  let e := s.m.heEdge he
  if s.m.isBoundary e || !s.m.isManifold e then .ok s
  else
    let fO := s.m.heFace (s.m.heSibling he)
    if s.done fO then .ok s
    else do
      let m ← if !s.m.isOriented e then s.m.invertOrientation fO else .ok s.m
      .ok ⟨m, fO :: s.stack, fun f => if f = fO then true else s.done f⟩

/-- The innermost loop, surface_mesh.cpp:1053: `next()` is read after the body. -/
def greedyFace (first : ℕ) : ℕ → Greedy → ℕ → Res Greedy
  | 0, _, _ => .error .hang
  | n + 1, s, cur => do
    let s ← greedyHe s cur
    if s.m.heNext cur = first then .ok s else greedyFace first n s (s.m.heNext cur)

/-- The `while` loop of `greedilyOrientFaces`, surface_mesh.cpp:1049-1065. -/
def greedyLoop : ℕ → Greedy → Res Greedy
  | 0, _ => .error .hang
  | n + 1, s =>
    match s.stack with
    | [] => .ok s
    | curr :: rest => do
      let s ← greedyFace (s.m.fHalfedge curr) s.m.nHeFill { s with stack := rest } (s.m.fHalfedge curr)
      greedyLoop n s

/-- `greedilyOrientFaces`, surface_mesh.cpp:1037-1067. -/
def greedilyOrientFaces (m : GMesh) : Res GMesh := do
  let s ← (List.range m.nFFill).foldlM (fun s f =>
    if s.m.fHalfedge f = INV then .ok s
    else if s.done f then .ok s
    else greedyLoop (s.m.nFFill + 1) ⟨s.m, f :: s.stack, fun g => if g = f then true else s.done g⟩)
    (⟨m, [], fun _ => false⟩ : Greedy)
  .ok s.m

/-! ### Validity

Written from docs/docs/surface/surface_mesh/internals.md ("Invariants") and `validateConnectivity`
(surface_mesh.cpp:1069-1358). -/

/-- Halfedge slot in use. -/
def heL (m : GMesh) (i : ℕ) : Prop := i < m.nHeFill ∧ m.heNext i ≠ INV
/-- Vertex slot in use. -/
def vL (m : GMesh) (v : ℕ) : Prop := v < m.nVFill ∧ m.vHalfedge v ≠ INV
/-- Face slot in use. -/
def fL (m : GMesh) (f : ℕ) : Prop := f < m.nFFill ∧ m.fHalfedge f ≠ INV
/-- Edge slot in use. -/
def eL (m : GMesh) (e : ℕ) : Prop := e < m.nEFill ∧ m.eHalfedge e ≠ INV

instance (m : GMesh) (i : ℕ) : Decidable (m.heL i) := by unfold heL; infer_instance
instance (m : GMesh) (i : ℕ) : Decidable (m.vL i) := by unfold vL; infer_instance
instance (m : GMesh) (i : ℕ) : Decidable (m.fL i) := by unfold fL; infer_instance
instance (m : GMesh) (i : ℕ) : Decidable (m.eL i) := by unfold eL; infer_instance

/-- Same direction along the edge if the orientation bits agree, opposite direction otherwise. -/
def aligned (m : GMesh) (i j : ℕ) : Prop :=
  if m.heOrient i = m.heOrient j then m.heVertex i = m.heVertex j ∧ m.tip i = m.tip j
  else m.heVertex i = m.tip j ∧ m.tip i = m.heVertex j

/-- A valid general mesh.  The count of interior halfedges is not included, see C27. -/
structure Valid (m : GMesh) : Prop where
  /-- storage: fill within capacity, no index is `INVALID_IND` -/
  he_cap : m.nHeFill ≤ m.nHeCap ∧ m.nHeCap < INV
  v_cap : m.nVFill ≤ m.nVCap ∧ m.nVCap < INV
  e_cap : m.nEFill ≤ m.nECap ∧ m.nECap < INV
  f_cap : m.nFFill ≤ m.nFCap ∧ m.nFCap < INV
  /-- references of live halfedges are live -/
  next_live : ∀ i, m.heL i → m.heL (m.heNext i)
  sib_live : ∀ i, m.heL i → m.heL (m.heSibling i)
  vertex_live : ∀ i, m.heL i → m.vL (m.heVertex i)
  face_live : ∀ i, m.heL i → m.fL (m.heFace i)
  edge_live : ∀ i, m.heL i → m.eL (m.heEdge i)
  /-- the halfedges of a face are exactly one cycle of `next`, those of an edge one cycle of `sibling` -/
  face_iff : ∀ i j, m.heL i → m.heL j → (m.heFace i = m.heFace j ↔ Orb m.heNext i j)
  edge_iff : ∀ i j, m.heL i → m.heL j → (m.heEdge i = m.heEdge j ↔ Orb m.heSibling i j)
  /-- `v.halfedge()` leaves `v`, `f.halfedge()` lies in `f`, `e.halfedge()` on `e` -/
  v_he : ∀ v, m.vL v → m.heL (m.vHalfedge v) ∧ m.heVertex (m.vHalfedge v) = v
  f_he : ∀ f, m.fL f → m.heL (m.fHalfedge f) ∧ m.heFace (m.fHalfedge f) = f
  e_he : ∀ e, m.eL e → m.heL (m.eHalfedge e) ∧ m.heEdge (m.eHalfedge e) = e
  /-- the halfedges of an edge have the same end points, in the order told by the orientation bits -/
  orient : ∀ i j, m.heL i → m.heL j → m.heEdge i = m.heEdge j → m.aligned i j
  /-- the vertex lists hold exactly the halfedges that end (start) at the vertex -/
  in_ring : Ring.Inv m.rin (fun h => if m.heL h then some (m.tip h) else none) m.vL
  out_ring : Ring.Inv m.rout (fun h => if m.heL h then some (m.heVertex h) else none) m.vL
  /-- the counters count -/
  cnt_he : m.nHe = Nat.count (fun i => m.heNext i ≠ INV) m.nHeFill
  cnt_e : m.nE = Nat.count (fun e => m.eHalfedge e ≠ INV) m.nEFill
  cnt_v : m.nV = Nat.count (fun v => m.vHalfedge v ≠ INV) m.nVFill
  cnt_f : m.nF = Nat.count (fun f => m.fHalfedge f ≠ INV) m.nFFill

/-- The mesh is so large that storage for `k` more halfedges, edges or faces could be refused. -/
def nearLimit (m : GMesh) (k : ℕ) : Prop :=
  INV ≤ 2 * (m.nHeFill + k) ∨ INV ≤ 2 * (m.nEFill + k) ∨ INV ≤ 2 * (m.nFFill + k)

end GMesh
end GC
