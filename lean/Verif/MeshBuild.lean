import Verif.MeshValid
import Verif.Loop

/-! # The polygon constructor of `ManifoldSurfaceMesh` (manifold_surface_mesh.cpp:48-256)

`createdHalfedges` is a function to `Option`; `none` stands for a missing entry and for `INVALID_IND`, which
the code does not distinguish.  Safety checks (`NGC_SAFETY_CHECKS`) are on. -/

namespace GC.Mesh

/-- State of the loop over the faces: mesh and `createdHalfedges`. -/
structure PolySt where
  m : Mesh
  look : ℕ × ℕ → Option ℕ

/-- The arrays before the first face, manifold_surface_mesh.cpp:55-67. -/
def empty (nV nF : ℕ) : Mesh where
  heNext _ := 0
  heVertex _ := 0
  heFace _ := 0
  vHalfedge _ := INV
  fHalfedge _ := INV
  nHe := 0
  nHeFill := 0
  nHeCap := 0
  nInt := 0
  nV := nV
  nVFill := 0
  nVCap := 0
  nE := 0
  nEFill := 0
  nECap := 0
  nF := nF
  nFFill := 0
  nFCap := 0
  nBL := 0
  nBLFill := 0

/-- The index of a halfedge, manifold_surface_mesh.cpp:112-128. -/
def findHe (s : PolySt) (tail tip : ℕ) : Res (Mesh × ℕ) :=
  match s.look (tip, tail) with
  | none => do
    let (m, h) ← s.m.getNewEdgeTriple false
    .ok ({ m with
      heNext := upd (upd m.heNext h INV) (twin h) INV
      heVertex := upd (upd m.heVertex h tail) (twin h) tip
      heFace := upd (upd m.heFace h INV) (twin h) INV }, h)
  | some t => .ok (s.m, twin t)

/-- One side of a face, manifold_surface_mesh.cpp:94-139; `prev = none` in the first round. -/
def addSide (iFace : ℕ) (s : PolySt × Option ℕ) (d : ℕ × ℕ) : Res (PolySt × Option ℕ) :=
  if d.1 = d.2 then .error .throw
  else if s.1.look d ≠ none then .error .throw
  else do
    let (m, h) ← findHe s.1 d.1 d.2
    let m := { m with heFace := upd m.heFace h iFace, vHalfedge := upd m.vHalfedge d.1 h }
    let m := match s.2 with
      | none => { m with fHalfedge := upd m.fHalfedge iFace h }
      | some p => { m with heNext := upd m.heNext p h }
    .ok (⟨m, fun k => if k = d then some h else s.1.look k⟩, some h)

/-- The sides of a polygon, manifold_surface_mesh.cpp:92-95. -/
def sidesOf (poly : List ℕ) : List (ℕ × ℕ) :=
  (List.range poly.length).map (fun i => (poly.getD i 0, poly.getD ((i + 1) % poly.length) 0))

/-- One face, manifold_surface_mesh.cpp:85-143; `firstHeInd` is `fHalfedgeArr[iFace]`. -/
def addPoly (s : PolySt) (p : List ℕ × ℕ) : Res PolySt := do
  let (s, prev) ← (sidesOf p.1).foldlM (addSide p.2) (s, none)
  match prev with
  | none => .error .ub
  | some q => .ok { s with m := { s.m with heNext := upd s.m.heNext q (s.m.fHalfedge p.2) } }

/-- The check that no vertex has two boundary halfedges, manifold_surface_mesh.cpp:155-162. -/
def checkBdy (m : Mesh) (onB : ℕ → Bool) (iHe : ℕ) : Res (ℕ → Bool) :=
  if m.heNext iHe = INV then
    let v := m.heVertex iHe
    if onB v then .error .throw else .ok (fun w => if w = v then true else onB w)
  else .ok onB

/-- The inner loop of the boundary walk, manifold_surface_mesh.cpp:198-204; the argument `c` is
`loopCountInnter`. -/
def bdyOrbit (m : Mesh) (iHe : ℕ) : ℕ → ℕ → ℕ → Res ℕ
  | 0, _, _ => .error .hang
  | n + 1, c, cur =>
    if m.heFace cur = INV then .ok cur
    else if cur = iHe then .ok cur
    else if m.heNext cur = INV then .error .ub
    else if ¬ c + 1 < m.nHe then .error .throw
    else bdyOrbit m iHe n (c + 1) (twin (m.heNext cur))

/-- The writes at the beginning of a round of the boundary walk, manifold_surface_mesh.cpp:184-193. -/
def bdyMark (m : Mesh) (cur bl : ℕ) : Mesh :=
  { m with
    heFace := upd m.heFace cur bl
    vHalfedge := upd m.vHalfedge (m.heVertex (twin cur)) (twin cur)
    nInt := m.nInt - 1 }

/-- The walk around a boundary loop, manifold_surface_mesh.cpp:182-214; `c` is `loopCount`. -/
def bdyLoop (iHe bl : ℕ) : ℕ → ℕ → Mesh → ℕ → Res Mesh
  | 0, _, _, _ => .error .hang
  | n + 1, c, m, cur =>
    let m := m.bdyMark cur bl
    if m.heNext (twin cur) = INV then .error .ub
    else do
      let new ← bdyOrbit m iHe (m.nHe + 1) 0 (twin (m.heNext (twin cur)))
      let m := { m with heNext := upd m.heNext new cur }
      if ¬ c + 1 < m.nHe then .error .throw
      else if new = iHe then .ok m
      else bdyLoop iHe bl n (c + 1) m new

/-- One round of the loop resolving boundary loops, manifold_surface_mesh.cpp:168-215. -/
def resolve (m : Mesh) (iHe : ℕ) : Res Mesh :=
  if m.heFace iHe ≠ INV then .ok m
  else
    let bl := m.nF + m.nBL
    bdyLoop iHe bl (m.nHe + 1) 0 { m with fHalfedge := upd m.fHalfedge bl iHe, nBL := m.nBL + 1 } iHe

/-- The capacities, manifold_surface_mesh.cpp:220-228. -/
def setCaps (m : Mesh) : Mesh :=
  { m with nVCap := m.nV, nHeCap := m.nHe, nECap := m.nE, nFCap := m.nF + m.nBL,
           nVFill := m.nV, nHeFill := m.nHe, nEFill := m.nE, nFFill := m.nF, nBLFill := m.nBL }

/-- The orbit of the last check, manifold_surface_mesh.cpp:237-245. -/
def seeOrbit (m : Mesh) (first : ℕ) : ℕ → (ℕ → Bool) → ℕ → Res (ℕ → Bool)
  | 0, _, _ => .error .hang
  | n + 1, seen, cur =>
    if seen cur then .error .throw
    else
      let seen := fun h => if h = cur then true else seen h
      let cur := m.heNext (twin cur)
      if cur = first then .ok seen else seeOrbit m first n seen cur

/-- The last check, manifold_surface_mesh.cpp:233-252. -/
def checkVertices (m : Mesh) : Res Unit := do
  let seen ← (List.range m.nV).foldlM (fun seen v => seeOrbit m (m.vHalfedge v) (m.nHe + 1) seen (m.vHalfedge v)) (fun _ => false)
  if (List.range m.nHe).any (fun h => !seen h) then .error .throw else .ok ()

/-- `ManifoldSurfaceMesh(polygons)`, manifold_surface_mesh.cpp:48-256. If `INVALID_IND` itself occurs as an index, the
vertex count wraps to zero and the first access to `vertUsed` is out of bounds (lines 63 and 98). -/
def fromPolygons (polys : List (List ℕ)) : Res Mesh := do
  if polys.any (fun p => p.length < 3) then .error .throw
  else
    let nV := polys.flatten.foldl max 0 + 1
    if INV < nV then .error .ub
    else if INV ≤ nV ∨ INV ≤ polys.length then .error .oom
    else
      let s ← polys.zipIdx.foldlM addPoly ⟨empty nV polys.length, fun _ => none⟩
      if (List.range nV).any (fun v => !polys.flatten.contains v) then .error .throw
      else
        let m := s.m
        let _ ← (List.range m.nHe).foldlM (checkBdy m) (fun _ => false)
        let m ← (List.range m.nHe).foldlM resolve { m with nInt := m.nHe }
        let m := m.setCaps
        checkVertices m
        .ok m

end GC.Mesh
