import Verif.Soup

/-! # `SimplePolygonMesh::consistentlyOrientFaces` (simple_polygon_mesh.cpp:652-877)

The table `neighbors` is a function of the face and the place in the face; its rows have the length of the
polygons.  `std::sort` is an arbitrary function, what it guarantees is a hypothesis of the theorem.  The ray
casting that decides whether a patch is turned outward is not modelled: `vote` gives its outcome for the
patch that begins at a face, and can be any function. -/

namespace GC.Soup
variable {P U : Type}

/-- `FaceSideEntry`, simple_polygon_mesh.cpp:710-716. -/
structure Side where
  a : ℕ
  b : ℕ
  f : ℕ
  j : ℕ
  canon : Bool
  deriving DecidableEq

/-- Inner loop of simple_polygon_mesh.cpp:725-735; all reads are within the polygon. -/
def faceSides (iF : ℕ) (face : List ℕ) : List Side :=
  (List.range face.length).map (fun j =>
    let iV := face.getD j 0
    let iVn := face.getD ((j + 1) % face.length) 0
    ⟨min iV iVn, max iV iVn, iF, j, decide (iV < iVn)⟩)

/-- `entries`, simple_polygon_mesh.cpp:724-735. -/
def entries (polygons : List (List ℕ)) : List Side :=
  (List.range polygons.length).flatMap (fun iF => faceSides iF (polygons.getD iF []))

/-- `neighbors`: `none` for `hasNeighbor = false`, otherwise `neighF` and `neighSameOrientation`. -/
abbrev Nb := ℕ → ℕ → Option (ℕ × Bool)

/-- Write one entry. -/
def Nb.set (nb : Nb) (f j : ℕ) (x : ℕ × Bool) : Nb := fun f' j' => if f' = f ∧ j' = j then some x else nb f' j'

/-- Same pair of vertices, the test of simple_polygon_mesh.cpp:763. -/
def Side.same (e x : Side) : Bool := x.a == e.a && x.b == e.b

/-- Its body, simple_polygon_mesh.cpp:767-785, for the entry `e` and the further entries with its pair. -/
def pairUp (e : Side) (others : List Side) (nb : Nb) : Nb :=
  match others with
  | [o] =>
    let sameOrient := e.canon != o.canon
    (nb.set e.f e.j (o.f, sameOrient)).set o.f o.j (e.f, sameOrient)
  | _ => nb

/-- The loop that matches up pairs, simple_polygon_mesh.cpp:756-788, on the entries from `i` on. -/
def matchUp : ℕ → List Side → Nb → Res Nb
  | 0, _, _ => .error .hang
  | _ + 1, [], nb => .ok nb
  | n + 1, e :: rest, nb =>
    matchUp n (rest.dropWhile e.same) (pairUp e (rest.takeWhile e.same) nb)

/-- State of the search: the mesh, `processed`, `allFacesInThisPatch`. -/
structure Orient (P U : Type) where
  s : Soup P U
  processed : ℕ → Bool
  patch : List ℕ

/-- Reversing a face and its texture coordinates, simple_polygon_mesh.cpp:814-817. -/
def reverseFace (s : Soup P U) (iF : ℕ) : Res (Soup P U) :=
  if iF < s.polygons.length then
    let s := { s with polygons := s.polygons.modify iF List.reverse }
    if s.hasParam then
      if iF < s.params.length then .ok { s with params := s.params.modify iF List.reverse } else .error .ub
    else .ok s
  else .error .ub

/-- `if (needsFlip) …`, simple_polygon_mesh.cpp:811-818. -/
def flipIf (needsFlip : Bool) (s : Soup P U) (iF : ℕ) : Res (Soup P U) := if needsFlip then reverseFace s iF else .ok s

/-- What is added to the queue for a face, simple_polygon_mesh.cpp:821-832. -/
def pushes (nb : Nb) (processed : ℕ → Bool) (deg iF : ℕ) (needsFlip : Bool) : List (ℕ × Bool) :=
  (List.range deg).filterMap (fun j =>
    match nb iF j with
    | none => none
    | some (jF, same) => if processed jF then none else some (jF, same == needsFlip))

/-- The `while` loop, simple_polygon_mesh.cpp:800-833. -/
def orientLoop (nb : Nb) (outward : Bool) : ℕ → List (ℕ × Bool) → Orient P U → Res (Orient P U)
  | 0, _, _ => .error .hang
  | _ + 1, [], t => .ok t
  | n + 1, (iF, needsFlip) :: q, t =>
    if t.processed iF then orientLoop nb outward n q t
    else do
      let processed := fun g => if g = iF then true else t.processed g
      let patch := if outward then t.patch ++ [iF] else t.patch
      let s ← flipIf needsFlip t.s iF
      orientLoop nb outward n (q ++ pushes nb processed (s.polygons.getD iF []).length iF needsFlip) ⟨s, processed, patch⟩

/-- Body of the loop over the start faces, simple_polygon_mesh.cpp:792-876. -/
def orientFrom (nb : Nb) (outward : Bool) (vote : ℕ → Bool) (fuel : ℕ) (t : Orient P U) (startFace : ℕ) : Res (Orient P U) :=
  if t.processed startFace then .ok t
  else do
    let t ← orientLoop nb outward fuel [(startFace, false)] { t with patch := [] }
    if outward && vote startFace then
      let s ← t.patch.foldlM reverseFace t.s
      .ok { t with s := s }
    else .ok t

/-- `consistentlyOrientFaces`, simple_polygon_mesh.cpp:652-877.  With `outwardOrient` the faces have to be
triangles. -/
def consistentlyOrient (sort : List Side → List Side) (vote : ℕ → Bool) (outward : Bool) (s : Soup P U) : Res (Soup P U) :=
  if outward && s.polygons.any (fun p => p.length != 3) then .error .throw
  else do
    let es := sort (entries s.polygons)
    let nb ← matchUp (es.length + 1) es (fun _ _ => none)
    let t ← (List.range s.polygons.length).foldlM (orientFrom nb outward vote (es.length + 2)) ⟨s, fun _ => false, []⟩
    .ok t.s

end GC.Soup
