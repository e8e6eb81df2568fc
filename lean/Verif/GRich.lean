import Verif.Stats
import Verif.Rich
import Verif.GMeshBuild

/-! # `RichSurfaceMeshData` for general meshes

As in `Verif/Rich.lean`, with the arrays of a mesh that stores siblings.  Such a mesh has no boundary loops. -/

namespace GC.GMesh

/-- The connectivity arrays in a file, rich_surface_mesh_data.cpp:142-181. -/
structure Saved where
  next : List ℕ
  vert : List ℕ
  face : List ℕ
  sib : List ℕ
  edge : List ℕ
  orient : List Bool
  vh : List ℕ
  eh : List ℕ
  fh : List ℕ
  bl : List ℕ

/-- `addMeshConnectivity`, rich_surface_mesh_data.cpp:112-192; the vertex lists of the faces (lines 116-117)
are written for other programs and not read back. -/
def save (m : GMesh) : Saved where
  next := slice m.heNext 0 m.nHeFill
  face := slice m.heFace 0 m.nHeFill
  vert := slice m.heVertex 0 m.nHeFill
  sib := slice m.heSibling 0 m.nHeFill
  edge := slice m.heEdge 0 m.nHeFill
  orient := (List.range m.nHeFill).map m.heOrient
  vh := slice m.vHalfedge 0 m.nVFill
  eh := slice m.eHalfedge 0 m.nEFill
  fh := slice m.fHalfedge 0 m.nFFill
  bl := slice m.fHalfedge m.nFCap 0

/-- The constructor from arrays, surface_mesh.cpp:217-283.  The interior halfedges counted in lines 276-280 are
those whose face lies below `nFacesFillCount` (surface_mesh.ipp:63). -/
def fromArrays (next vert face vh fh sib edge : List ℕ) (orient : List Bool) (eh : List ℕ) (nBL : ℕ) : GMesh :=
  initNeighbors
  { heNext := Mesh.vec next
    heVertex := Mesh.vec vert
    heFace := Mesh.vec face
    heSibling := Mesh.vec sib
    heEdge := Mesh.vec edge
    heOrient := fun i => orient.getD i false
    vHalfedge := Mesh.vec vh
    fHalfedge := Mesh.vec fh
    eHalfedge := Mesh.vec eh
    rin := ⟨fun _ => 0, fun _ => 0, fun _ => 0⟩
    rout := ⟨fun _ => 0, fun _ => 0, fun _ => 0⟩
    nHe := next.length - Nat.count (fun i => Mesh.vec next i = INV) next.length
    nHeFill := next.length
    nHeCap := next.length
    nInt := ((List.range next.length).filter (fun i => decide (Mesh.vec next i ≠ INV ∧ ¬ fh.length - nBL ≤ Mesh.vec face i))).length
    nV := vh.length - Nat.count (fun v => Mesh.vec vh v = INV) vh.length
    nVFill := vh.length
    nVCap := vh.length
    nE := eh.length - Nat.count (fun e => Mesh.vec eh e = INV) eh.length
    nEFill := eh.length
    nECap := eh.length
    nF := fh.length - nBL - Nat.count (fun f => Mesh.vec fh f = INV) (fh.length - nBL)
    nFFill := fh.length - nBL
    nFCap := fh.length }

/-- `loadMeshFromFile`, rich_surface_mesh_data.cpp:30-76. -/
def load (s : Saved) : GMesh :=
  fromArrays (s.next.map fromSmall) (s.vert.map fromSmall) (s.face.map fromSmall) (s.vh.map fromSmall)
    (s.fh.map fromSmall ++ s.bl.map fromSmall) (s.sib.map fromSmall) (s.edge.map fromSmall) s.orient
    (s.eh.map fromSmall) s.bl.length

/-! The ranges over all elements, halfedge_element_types.ipp:127, 259, 262, 285, 353, 437. -/

def rangeHalfedges (m : GMesh) : Res (List ℕ) := rangeList (fun i => decide (m.heNext i ≠ INV)) m.nHeFill
/-- Interior halfedges; the range of corners is the same. -/
def rangeInteriorHalfedges (m : GMesh) : Res (List ℕ) :=
  rangeList (fun i => decide (m.heNext i ≠ INV ∧ ¬ m.nFFill ≤ m.heFace i)) m.nHeFill
def rangeFaces (m : GMesh) : Res (List ℕ) := rangeList (fun f => decide (m.fHalfedge f ≠ INV)) m.nFFill

end GC.GMesh
