import Verif.GMesh

/-!
# Building a general mesh from polygons

`SurfaceMesh::SurfaceMesh(polygons)`, surface_mesh.cpp:58-214, with the safety checks enabled (the
default) and without twins (with twins it throws "not implemented").
-/

namespace GC.GMesh

/-- Body of the loop around a face, surface_mesh.cpp:102-132; state = mesh and previous halfedge. -/
def addHe (iFace : ℕ) (s : GMesh × Option ℕ) (indTail : ℕ) : Res (GMesh × Option ℕ) := do
  let (m, h) ← s.1.getNewHalfedge true
  let m := { m with
    heNext := upd m.heNext h INV
    heVertex := upd m.heVertex h indTail
    heFace := upd m.heFace h iFace
    vHalfedge := upd m.vHalfedge indTail h }
  .ok (match s.2 with
    | none => { m with fHalfedge := upd m.fHalfedge iFace h }
    | some p => { m with heNext := upd m.heNext p h }, some h)

/-- One face, surface_mesh.cpp:95-134; `firstHeInd` is `fHalfedgeArr[iFace]`. -/
def addFace (m : GMesh) (p : List ℕ × ℕ) : Res GMesh := do
  let (m, prev) ← p.1.foldlM (addHe p.2) (m, none)
  match prev with
  | none => .error .ub
  | some q => .ok { m with heNext := upd m.heNext q (m.fHalfedge p.2) }

/-- `poly[(i + 1) % faceDegree]`, surface_mesh.cpp:159. -/
def tipOf (poly : List ℕ) (i : ℕ) : ℕ := poly.getD ((i + 1) % poly.length) 0

/-- `eKey`, surface_mesh.cpp:162. -/
def edgeKey (a b : ℕ) : ℕ × ℕ := (min a b, max a b)

/-- State while edges are created: mesh, `edgeHistory`, `iHe`. -/
structure EdgeSt where
  m : GMesh
  hist : ℕ × ℕ → Option ℕ
  iHe : ℕ

/-- Body of the loop creating edges, surface_mesh.cpp:162-183. -/
def addSide (s : EdgeSt) (side : ℕ × ℕ) : Res EdgeSt :=
  let key := edgeKey side.1 side.2
  match s.hist key with
  | none => do
    let (m, e) ← s.m.getNewEdge
    .ok ⟨{ m with
      heEdge := upd m.heEdge s.iHe e
      heSibling := upd m.heSibling s.iHe INV
      heOrient := fun h => if h = s.iHe then true else m.heOrient h
      eHalfedge := upd m.eHalfedge e s.iHe },
      fun k => if k = key then some s.iHe else s.hist k, s.iHe + 1⟩
  | some iPrev =>
    let m := s.m
    let iE := m.heEdge iPrev
    .ok ⟨{ m with
      heSibling := upd m.heSibling s.iHe iPrev
      heEdge := upd m.heEdge s.iHe iE
      heOrient := fun h => if h = s.iHe then m.heVertex s.iHe == m.heVertex (m.eHalfedge iE) else m.heOrient h },
      fun k => if k = key then some s.iHe else s.hist k, s.iHe + 1⟩

/-- The sides of the polygons in the order of the two loops of surface_mesh.cpp:151-159. -/
def sides (polys : List (List ℕ)) : List (ℕ × ℕ) :=
  polys.flatMap (fun poly => (List.range poly.length).map (fun i => (poly.getD i 0, tipOf poly i)))

/-- `while (heSiblingArr[currHe] != INVALID_IND) currHe = heSiblingArr[currHe];`
(surface_mesh.cpp:198-201). -/
def walkBack (sib : ℕ → ℕ) : ℕ → ℕ → Res ℕ
  | 0, _ => .error .hang
  | n + 1, cur => if sib cur = INV then .ok cur else walkBack sib n (sib cur)

/-- One entry of `edgeHistory` in the loop that completes the sibling cycles,
surface_mesh.cpp:188-203. -/
def closeCycle (hist : ℕ × ℕ → Option ℕ) (m : GMesh) (key : ℕ × ℕ) : Res GMesh :=
  match hist key with
  | none => .ok m
  | some lastHe =>
    if m.heSibling lastHe = INV then .ok { m with heSibling := upd m.heSibling lastHe lastHe }
    else do
      let first ← walkBack m.heSibling m.nHeFill lastHe
      .ok { m with heSibling := upd m.heSibling first lastHe }

/-- `initializeHalfedgeNeighbors`, surface_mesh.cpp:291-348.  The two checks of lines 340-341 test what
the cache guarantees. -/
def initNeighbors (m : GMesh) : GMesh :=
  { m with
    rin := m.rin.init (fun h => m.heNext h == INV) (fun v => m.vHalfedge v == INV) m.tip m.nHeFill m.nVFill
    rout := m.rout.init (fun h => m.heNext h == INV) (fun v => m.vHalfedge v == INV) m.heVertex m.nHeFill m.nVFill }

/-- The mesh after the arrays are allocated, surface_mesh.cpp:71-87. -/
def empty (nV nF : ℕ) : GMesh where
  heNext _ := 0
  heVertex _ := 0
  heFace _ := 0
  heSibling _ := 0
  heEdge _ := 0
  heOrient _ := false
  vHalfedge _ := INV
  fHalfedge _ := INV
  eHalfedge _ := 0
  rin := ⟨fun _ => 0, fun _ => 0, fun _ => 0⟩
  rout := ⟨fun _ => 0, fun _ => 0, fun _ => 0⟩
  nHe := 0
  nInt := 0
  nHeFill := 0
  nHeCap := 0
  nV := nV
  nVFill := nV
  nVCap := nV
  nE := 0
  nEFill := 0
  nECap := 0
  nF := nF
  nFFill := nF
  nFCap := nF

/-- `SurfaceMesh(polygons)`, surface_mesh.cpp:58-214.  `order` is the order in which the entries of the
unordered map `edgeHistory` are visited in the loop of line 188. -/
def fromPolygons (polys : List (List ℕ)) (order : List (ℕ × ℕ)) : Res GMesh := do
  if polys.any (fun p => p.length < 3) then .error .throw
  else
    let nV := polys.flatten.foldl max 0 + 1
    if INV ≤ nV ∨ INV ≤ polys.length then .error .oom
    else
      let m ← polys.zipIdx.foldlM addFace (empty nV polys.length)
      if (List.range nV).any (fun v => !polys.flatten.contains v) then .error .throw
      else
        let s ← (sides polys).foldlM addSide ⟨m, fun _ => none, 0⟩
        let m ← order.foldlM (closeCycle s.hist) s.m
        .ok m.initNeighbors

end GC.GMesh
