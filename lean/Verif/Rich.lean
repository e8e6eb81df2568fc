import Verif.Nav
import Verif.MeshValid

/-! # `RichSurfaceMeshData` for manifold meshes

What is written and read is the list of named arrays; the text or binary encoding of the PLY library is not modelled
(an array of `uint32_t` or of property values comes back as it was written). -/

namespace GC

/-- `toSmallerVec` on one entry, rich_surface_mesh_data.cpp:129-135. -/
def toSmall (v : ℕ) : ℕ := if v = INV then 2 ^ 32 - 1 else v % 2 ^ 32

/-- `fromSmallerVec` on one entry, rich_surface_mesh_data.cpp:41-43. -/
def fromSmall (v : ℕ) : ℕ := if v = 2 ^ 32 - 1 then INV else v

/-- Entries `b, …, b+n-1` of an array. -/
def slice (a : ℕ → ℕ) (b n : ℕ) : List ℕ := (List.range n).map (fun i => toSmall (a (b + i)))

namespace Mesh

/-- The connectivity arrays in a file, rich_surface_mesh_data.cpp:142-181. -/
structure Saved where
  next : List ℕ
  vert : List ℕ
  face : List ℕ
  vh : List ℕ
  fh : List ℕ
  bl : List ℕ

/-- `addMeshConnectivity` with implicit twins, rich_surface_mesh_data.cpp:112-192; the vertex lists of the faces
(lines 116-117) are written for other programs and not read back. The length of `fHalfedgeArr` is the capacity. -/
def save (m : Mesh) : Saved where
  next := slice m.heNext 0 m.nHeFill
  face := slice m.heFace 0 m.nHeFill
  vert := slice m.heVertex 0 m.nHeFill
  vh := slice m.vHalfedge 0 m.nVFill
  fh := slice m.fHalfedge 0 m.nFFill
  bl := slice m.fHalfedge (m.nFCap - m.nBLFill) m.nBLFill

/-- Read access to a vector; positions outside are not used. -/
def vec (l : List ℕ) : ℕ → ℕ := fun i => l.getD i 0

/-- The manifold constructor from arrays, manifold_surface_mesh.cpp:444-509. -/
def fromArrays (next vert face vh fh : List ℕ) (nBL : ℕ) : Mesh :=
  let nHe := next.length
  let nE := nHe / 2
  let nV := vh.length
  let nF := fh.length - nBL
  { heNext := vec next
    heVertex := vec vert
    heFace := vec face
    vHalfedge := vec vh
    fHalfedge := vec fh
    nHe := nHe - Nat.count (fun i => vec next i = INV) nHe
    nHeFill := nHe
    nHeCap := nHe
    nInt := ((List.range nHe).filter (fun i => decide (vec next i ≠ INV ∧ ¬ nF ≤ vec face i))).length
    nV := nV - Nat.count (fun v => vec vh v = INV) nV
    nVFill := nV
    nVCap := nV
    nE := nE - Nat.count (fun e => vec next (2 * e) = INV) nE
    nEFill := nE
    nECap := nHe / 2
    nF := nF - Nat.count (fun f => vec fh f = INV) nF
    nFFill := nF
    nFCap := fh.length
    nBL := nBL - ((List.range nBL).filter (fun b => decide (vec fh (nF + b) = INV))).length
    nBLFill := nBL }

/-- `loadMeshFromFile` with implicit twins, rich_surface_mesh_data.cpp:30-76. -/
def load (s : Saved) : Mesh :=
  fromArrays (s.next.map fromSmall) (s.vert.map fromSmall) (s.face.map fromSmall) (s.vh.map fromSmall)
    (s.fh.map fromSmall ++ s.bl.map fromSmall) s.bl.length

end Mesh

/-- `addElementProperty`, rich_surface_mesh_data.ipp:42-58: `n` is the number of elements, `ids` the elements in
iteration order; the PLY library throws if the sizes differ. -/
def putProp {T : Type} (n : ℕ) (ids : Res (List ℕ)) (data : ℕ → T) : Res (List T) := do
  let l ← ids
  if l.length ≠ n then .error .throw else .ok (l.map data)

/-- The loop of `getElementProperty`, rich_surface_mesh_data.ipp:31-35. -/
def fillProp {T : Type} (raw : List T) : List ℕ → ℕ → (ℕ → T) → Res (ℕ → T)
  | [], _, c => .ok c
  | e :: l, i, c => match raw[i]? with
    | none => .error .ub
    | some x => fillProp raw l (i + 1) (fun j => if j = e then x else c j)

/-- `getElementProperty`, rich_surface_mesh_data.ipp:21-38; `d` is the default value of the new container. -/
def getProp {T : Type} (n : ℕ) (ids : Res (List ℕ)) (raw : List T) (d : T) : Res (ℕ → T) :=
  if raw.length ≠ n then .error .throw
  else do
    let l ← ids
    fillProp raw l 0 (fun _ => d)

end GC
