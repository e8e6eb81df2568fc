import Verif.GMesh

/-! # The tufted cover of a general mesh (src/surface/tufted_laplacian.cpp)

`buildIntrinsicTuftedCover` on a `SurfaceMesh` with explicit siblings.  Entries of `MeshData` are total functions.  The values of `edgeLengths` are of any type,
they are only copied.  The order of the faces around an edge is a parameter, see `tuftEdge`. -/

namespace GC.GMesh

/-- The `do … while` that reads off the correspondence of the two copies of a face, tufted_laplacian.cpp:58-65. -/
def tuftPairs (m : GMesh) (first : ℕ) : ℕ → (ℕ → ℕ) → ℕ → ℕ → Res (ℕ → ℕ)
  | 0, _, _, _ => .error .hang
  | n + 1, otherSheet, heF, heB =>
    let otherSheet := upd (upd otherSheet heF heB) heB heF
    if m.heNext heF = first then .ok otherSheet else tuftPairs m first n otherSheet (m.heNext heF) (m.heNext heB)

/-- Mesh, `otherSheet` and `isFront`. -/
structure Tuft where
  m : GMesh
  other : ℕ → ℕ
  front : ℕ → Bool

/-- Body of the loop over the faces, tufted_laplacian.cpp:50-70. -/
def tuftFace (s : Tuft) (fFront : ℕ) : Res Tuft :=
  if ¬ s.front fFront then .ok s
  else do
    let (m, fBack) ← s.m.duplicateFace fFront
    let other ← tuftPairs m (m.fHalfedge fFront) (m.nHeFill + 1) s.other (m.fHalfedge fFront) (m.fHalfedge fBack)
    let m ← m.invertOrientation fBack
    .ok ⟨m, other, fun f => if f = fBack then false else s.front f⟩

/-- Mesh, `isOrigEdge`, `edgeLengths`, `currHe`. -/
structure Glue (α : Type) where
  m : GMesh
  orig : ℕ → Bool
  len : ℕ → α
  curr : ℕ

/-- Body of the loop that connects the faces around an edge, tufted_laplacian.cpp:108-115. -/
def glueStep {α : Type} (otherSheet : ℕ → ℕ) (edgeFaces : List ℕ) (e : ℕ) (s : Glue α) (i : ℕ) : Res (Glue α) :=
  match edgeFaces[(i + 1) % edgeFaces.length]? with
  | none => .error .ub
  | some nextHe => do
    let nextHe := if s.m.heOrient s.curr = s.m.heOrient nextHe then otherSheet nextHe else nextHe
    let (m, newE) ← s.m.separateToNewEdge s.curr nextHe
    .ok ⟨m, fun e' => if e' = newE then false else s.orig e', fun e' => if e' = newE then s.len e else s.len e', otherSheet nextHe⟩

/-- Body of the loop over the edges, tufted_laplacian.cpp:75-116.  `sort` stands for lines 87-103: the list itself without positions, otherwise `std::sort` by the
angle of the faces around the edge. -/
def tuftEdge {α : Type} (sort : GMesh → ℕ → List ℕ → List ℕ) (otherSheet : ℕ → ℕ) (isFront : ℕ → Bool) (s : Glue α) (e : ℕ) : Res (Glue α) :=
  if ¬ s.orig e then .ok s
  else do
    let l ← s.m.edgeHalfedges e
    let edgeFaces := sort s.m e (l.filter (fun he => isFront (s.m.heFace he)))
    match edgeFaces with
    | [] => .error .ub
    | c :: _ =>
      let currHe := if s.m.heOrient c then otherSheet c else c
      (List.range edgeFaces.length).foldlM (glueStep otherSheet edgeFaces e) { s with curr := currHe }

/-- `buildIntrinsicTuftedCover`, tufted_laplacian.cpp:39-122.  The two ranges are fixed before the loops; dead elements are skipped when they are reached. -/
def buildIntrinsicTuftedCover {α : Type} (sort : GMesh → ℕ → List ℕ → List ℕ) (m : GMesh) (edgeLengths : ℕ → α) : Res (GMesh × (ℕ → α)) := do
  let t ← (List.range m.nFFill).foldlM (fun s f => if s.m.fHalfedge f = INV then .ok s else tuftFace s f) (⟨m, fun _ => INV, fun _ => true⟩ : Tuft)
  let s ← (List.range t.m.nEFill).foldlM (fun s e => if s.m.eHalfedge e = INV then .ok s else tuftEdge sort t.other t.front s e)
    (⟨t.m, fun _ => true, edgeLengths, INV⟩ : Glue α)
  .ok (s.m, s.len)

end GC.GMesh
