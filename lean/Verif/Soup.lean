import Verif.Loop
import Mathlib.Data.List.Sort

/-! # Polygon soups (`SimplePolygonMesh`)

`P` is the type of positions (`Vector3`), `U` the type of texture coordinates (`Vector2`). Equality of positions is equality; the
special comparison rules of NaN are not modelled. Hash maps and hash sets are functions and lists. -/

namespace GC

/-- `SimplePolygonMesh`, simple_polygon_mesh.h:29-31. -/
structure Soup (P U : Type) where
  polygons : List (List ℕ)
  coords : List P
  params : List (List U)

namespace Soup
variable {P U : Type}

/-- `hasParameterization`, simple_polygon_mesh.h:36. -/
def hasParam (s : Soup P U) : Bool := !s.params.isEmpty

/-- The loop `for (size_t& iV : face) iV = table[iV]` over all faces. -/
def reindex (table : List ℕ) (polygons : List (List ℕ)) : Res (List (List ℕ)) :=
  polygons.mapM (fun face => face.mapM (fun iV => rd table iV))

/-- State of the first loop of `mergeIdenticalVertices`: `compressedPositions`, `compressVertex`, `canonicalIndex`. -/
structure MergeState (P : Type) where
  pos : List P
  comp : List ℕ
  canon : P → Option ℕ

/-- Body of that loop, simple_polygon_mesh.cpp:454-467. -/
def mergeStep [DecidableEq P] (s : MergeState P) (v : P) : MergeState P :=
  match s.canon v with
  | none =>
    let pos := s.pos ++ [v]
    let vecIndex := pos.length - 1
    ⟨pos, s.comp ++ [vecIndex], fun w => if w = v then some vecIndex else s.canon w⟩
  | some vecIndex => ⟨s.pos, s.comp ++ [vecIndex], s.canon⟩

/-- `mergeIdenticalVertices`, simple_polygon_mesh.cpp:445-477. -/
def mergeIdentical [DecidableEq P] (s : Soup P U) : Res (Soup P U) :=
  let t := s.coords.foldl mergeStep ⟨[], [], fun _ => none⟩
  match reindex t.comp s.polygons with
  | .error e => .error e
  | .ok polys => .ok { s with polygons := polys, coords := t.pos }

/-- The first loop of `stripUnusedVertices`, simple_polygon_mesh.cpp:485-491: `GC_SAFETY_ASSERT` throws. -/
def markStep (nV : ℕ) (used : List Bool) (i : ℕ) : Res (List Bool) :=
  if i < nV then wr used i true else .error .throw

/-- The second loop, simple_polygon_mesh.cpp:498-503; state `newInd`, `newVertexCoordinates`, `nNewV`. -/
def stripStep (coords : List P) (used : List Bool) (s : List ℕ × List P × ℕ) (iOldV : ℕ) : Res (List ℕ × List P × ℕ) :=
  match rd used iOldV with
  | .error e => .error e
  | .ok false => .ok s
  | .ok true => match wr s.1 iOldV s.2.2, rd coords iOldV with
    | .ok newInd, .ok p => .ok (newInd, s.2.1 ++ [p], s.2.2 + 1)
    | _, _ => .error .ub

/-- `stripUnusedVertices`, simple_polygon_mesh.cpp:480-514. -/
def stripUnused (s : Soup P U) : Res (Soup P U × List ℕ) :=
  let nV := s.coords.length
  match s.polygons.flatten.foldlM (markStep nV) (List.replicate nV false) with
  | .error e => .error e
  | .ok used =>
    match (List.range nV).foldlM (stripStep s.coords used) (List.replicate nV INV, [], 0) with
    | .error e => .error e
    | .ok (newInd, newCoords, _) =>
      match reindex newInd s.polygons with
      | .error e => .error e
      | .ok polys => .ok ({ s with polygons := polys, coords := newCoords }, newInd)

/-- The simple search for a repeated index, simple_polygon_mesh.cpp:562-566. -/
def repeatSearch (face : List ℕ) : Bool :=
  (List.range face.length).any (fun i => (List.range face.length).any (fun j => decide (i + 1 ≤ j) && face[i]? == face[j]?))

/-- The search with a hash set, simple_polygon_mesh.cpp:570-574. -/
def repeatHash (face : List ℕ) : Bool :=
  (face.foldl (fun (s : List ℕ × Bool) ind => (ind :: s.1, if ind ∈ s.1 then true else s.2)) ([], false)).2

/-- `cullFace`, simple_polygon_mesh.cpp:537-576. The degree test is guarded by `removeWithBadInds`, as in the source. -/
def cull (nV : ℕ) (removeWithBadInds _removeLowDegree removeWithRepeatedInds : Bool) (face : List ℕ) : Bool :=
  let cullFace := false
  let cullFace := if removeWithBadInds then (if face.any (fun ind => decide (nV ≤ ind)) then true else cullFace) else cullFace
  let cullFace := if removeWithBadInds then (if face.length < 3 then true else cullFace) else cullFace
  if removeWithRepeatedInds then
    (if face.length < 8 then (if repeatSearch face then true else cullFace)
     else (if repeatHash face then true else cullFace))
  else cullFace

/-- One step of the face loop, simple_polygon_mesh.cpp:533-583; state `newFaces`, `newParamCoordinates`. -/
def workerStep (s : Soup P U) (a b c : Bool) (t : List (List ℕ) × List (List U)) (iF : ℕ) : Res (List (List ℕ) × List (List U)) :=
  match rd s.polygons iF with
  | .error e => .error e
  | .ok face =>
    if cull s.coords.length a b c face then .ok t
    else if s.hasParam then
      match rd s.params iF with
      | .error e => .error e
      | .ok uv => .ok (t.1 ++ [face], t.2 ++ [uv])
    else .ok (t.1 ++ [face], t.2)

/-- `stripInvalidFaceWorker`, simple_polygon_mesh.cpp:527-591. -/
def stripWorker (s : Soup P U) (a b c : Bool) : Res (Soup P U) :=
  match (List.range s.polygons.length).foldlM (workerStep s a b c) ([], []) with
  | .error e => .error e
  | .ok (faces, uvs) => .ok { s with polygons := faces, params := if s.hasParam then uvs else s.params }

/-- `stripFacesWithDuplicateVertices` and `stripInvalidFaces`, simple_polygon_mesh.cpp:523-525. -/
def stripDuplicateVertexFaces (s : Soup P U) : Res (Soup P U) := stripWorker s false false true
def stripInvalidFaces (s : Soup P U) : Res (Soup P U) := stripWorker s true true true

/-- `IndPoly`, simple_polygon_mesh.cpp:597-600. -/
structure IndPoly where
  inds : List ℕ
  orig : ℕ
  deriving DecidableEq

/-- `std::sort` of the indices of one polygon (the result does not depend on the method). -/
def sortInds (l : List ℕ) : List ℕ := l.insertionSort (· ≤ ·)

/-- `sortpolys` before it is sorted, simple_polygon_mesh.cpp:601-605. -/
def indPolys (s : Soup P U) : List IndPoly :=
  (List.range s.polygons.length).map (fun iF => ⟨sortInds (s.polygons.getD iF []), iF⟩)

/-- The loop that keeps the first entry of each run, simple_polygon_mesh.cpp:614-629. -/
def keepRuns : List IndPoly → List IndPoly
  | [] => []
  | p :: l => p :: keepRuns (l.dropWhile (fun q => q.inds == p.inds))
  termination_by l => l.length
  decreasing_by
    have := (List.dropWhile_sublist (l := l) (fun q => q.inds == p.inds)).length_le
    simp only [List.length_cons]; omega

/-- Reading the kept polygons and texture coordinates. -/
def keepStep (s : Soup P U) (t : List (List ℕ) × List (List U)) (p : IndPoly) : Res (List (List ℕ) × List (List U)) :=
  match rd s.polygons p.orig with
  | .error e => .error e
  | .ok face =>
    if s.hasParam then
      match rd s.params p.orig with
      | .error e => .error e
      | .ok uv => .ok (t.1 ++ [face], t.2 ++ [uv])
    else .ok (t.1 ++ [face], t.2)

/-- `stripDuplicateFaces`, simple_polygon_mesh.cpp:593-633. `sort` is `std::sort` with the lexicographic comparison of `inds`; the
order it gives to equal entries is unspecified. -/
def stripDuplicateFaces (sort : List IndPoly → List IndPoly) (s : Soup P U) : Res (Soup P U) :=
  match (keepRuns (sort s.indPolys)).foldlM (keepStep s) ([], []) with
  | .error e => .error e
  | .ok (faces, uvs) => .ok { s with polygons := faces, params := uvs }

/-- One fan, simple_polygon_mesh.cpp:643-646; the loop bound keeps all indices below `poly.size()`. -/
def fan (poly : List ℕ) : List (List ℕ) :=
  (List.range' 2 (poly.length - 2)).map (fun i => [poly.getD 0 0, poly.getD (i - 1) 0, poly.getD i 0])

/-- `triangulate`, simple_polygon_mesh.cpp:635-650. -/
def triangulate (s : Soup P U) : Res (Soup P U) :=
  match s.polygons.foldlM (fun (t : List (List ℕ)) poly => if poly.length ≤ 2 then (.error .throw : Res _) else .ok (t ++ fan poly)) [] with
  | .error e => .error e
  | .ok polys => .ok { s with polygons := polys }

/-- `unionMeshes`, simple_polygon_mesh.cpp:941-973. -/
def union (l : List (Soup P U)) : Soup P U :=
  let keepCoords := l.all (fun m => m.hasParam)
  l.foldl (fun acc m =>
    ⟨acc.polygons ++ m.polygons.map (fun f => f.map (fun i => i + acc.coords.length)), acc.coords ++ m.coords,
      if keepCoords then acc.params ++ m.params else acc.params⟩) ⟨[], [], []⟩

end Soup
end GC
