import Mathlib.Data.Nat.Count
import Mathlib.Tactic.Common
import Verif.Orbit

/-!
# The manifold halfedge mesh (implicit-twin `SurfaceMesh`)

Model of the connectivity arrays and counters of `ManifoldSurfaceMesh`
(`include/geometrycentral/surface/surface_mesh.h`, `surface_mesh.ipp`) and of the allocation and
deletion primitives (`src/surface/surface_mesh.cpp`).

Simplifications, valid for the whole file:
* the vectors `heNextArr`, … are total functions `ℕ → ℕ`; their length is the capacity counter;
* callbacks to containers, `modificationTick` and `isCompressedFlag` are not part of this state
  (containers are modelled in `Verif.Containers`);
* 64-bit wrap-around of counters is not modelled: allocation fails (`Err.oom`, the C++
  `std::length_error` / `std::bad_alloc`) before a capacity reaches `INVALID_IND`.
-/

namespace GC

/-- `INVALID_IND = std::numeric_limits<size_t>::max()`, utilities.h:28. -/
def INV : ℕ := 2 ^ 64 - 1

/-- Ways a call can fail to return: an exception, an out-of-range access (undefined behaviour),
failure to allocate, or a loop that does not end. -/
inductive Err where
  | throw | ub | oom | hang
  deriving DecidableEq, Repr

/-- Result of a modelled call. -/
abbrev Res (α : Type) := Except Err α

/-- Array write `f[i] = v`. -/
def upd (f : ℕ → ℕ) (i v : ℕ) : ℕ → ℕ := fun j => if j = i then v else f j

/-- State of an implicit-twin `SurfaceMesh`: surface_mesh.h:251-338 (`heNextArr`, `heVertexArr`,
`heFaceArr`, `vHalfedgeArr`, `fHalfedgeArr` and the `n…Count`, `n…FillCount`, `n…CapacityCount`
fields). The explicit sibling/edge/orientation arrays are unused with implicit twins. -/
structure Mesh where
  heNext : ℕ → ℕ
  heVertex : ℕ → ℕ
  heFace : ℕ → ℕ
  vHalfedge : ℕ → ℕ
  fHalfedge : ℕ → ℕ
  nHe : ℕ
  nHeFill : ℕ
  nHeCap : ℕ
  nInt : ℕ
  nV : ℕ
  nVFill : ℕ
  nVCap : ℕ
  nE : ℕ
  nEFill : ℕ
  nECap : ℕ
  nF : ℕ
  nFFill : ℕ
  nFCap : ℕ
  nBL : ℕ
  nBLFill : ℕ

/-- `heTwinImplicit`, surface_mesh.ipp:58. -/
def twin (i : ℕ) : ℕ := i ^^^ 1

namespace Mesh

/-- `heEdgeImplicit`, surface_mesh.ipp:59. -/
def heEdge (i : ℕ) : ℕ := i / 2

/-- `eHalfedgeImplicit`, surface_mesh.ipp:60. -/
def eHalfedge (e : ℕ) : ℕ := 2 * e

/-- `faceIsBoundaryLoop`, surface_mesh.ipp:64. -/
def faceIsBL (m : Mesh) (f : ℕ) : Prop := m.nFFill ≤ f

instance (m : Mesh) (f : ℕ) : Decidable (m.faceIsBL f) := by unfold faceIsBL; infer_instance

/-- `heIsInterior`, surface_mesh.ipp:63. -/
def heIsInterior (m : Mesh) (i : ℕ) : Prop := ¬ m.faceIsBL (m.heFace i)

instance (m : Mesh) (f : ℕ) : Decidable (m.heIsInterior f) := by unfold heIsInterior; infer_instance

/-- `heNextOutgoingNeighbor` with implicit twins, surface_mesh.ipp:44-46: the next halfedge leaving
the same vertex. -/
def vNext (m : Mesh) (i : ℕ) : ℕ := m.heNext (twin i)

/-- `Vertex::isBoundary` with implicit twins, halfedge_element_types.ipp:38-41. -/
def vIsBoundary (m : Mesh) (v : ℕ) : Prop := ¬ m.heIsInterior (twin (m.vHalfedge v))

instance (m : Mesh) (f : ℕ) : Decidable (m.vIsBoundary f) := by unfold vIsBoundary; infer_instance

/-- `Edge::isBoundary` with implicit twins, halfedge_element_types.ipp:330-332. -/
def eIsBoundary (m : Mesh) (e : ℕ) : Prop := ¬ m.heIsInterior (twin (eHalfedge e))

instance (m : Mesh) (f : ℕ) : Decidable (m.eIsBoundary f) := by unfold eIsBoundary; infer_instance

/-- `Face::isTriangle`, halfedge_element_types.ipp:406-409. -/
def fIsTriangle (m : Mesh) (f : ℕ) : Prop :=
  m.fHalfedge f = m.heNext (m.heNext (m.heNext (m.fHalfedge f)))

instance (m : Mesh) (f : ℕ) : Decidable (m.fIsTriangle f) := by unfold fIsTriangle; infer_instance

/-- `Halfedge::tipVertex` = `next().vertex()`, halfedge_element_types.ipp:224. -/
def tip (m : Mesh) (i : ℕ) : ℕ := m.heVertex (m.heNext i)

end Mesh

/-! ### Loops over orbits -/

/-- The loop of a navigation iterator whose elements are all valid
(element_iterators.ipp:65-121): collect `cur, f cur, …` until `start` comes round again. The fuel is
the number of allocated halfedges; running out of it stands for a loop that never ends. -/
def orbitAux (f : ℕ → ℕ) (start : ℕ) : ℕ → ℕ → Res (List ℕ)
  | 0, _ => .error .hang
  | n + 1, cur => if f cur = start then .ok [cur] else
      match orbitAux f start n (f cur) with
      | .ok r => .ok (cur :: r)
      | .error e => .error e

/-- Elements visited by a navigation loop that starts at `start` and advances with `f`. -/
def orbitList (f : ℕ → ℕ) (start fuel : ℕ) : Res (List ℕ) := orbitAux f start fuel start

/-- The loop of `prevOrbitFace` / `prevOrbitVertex` (halfedge_element_types.ipp:235-252): advance
with `adv` from `cur` until `test cur = target`. -/
def walkPrev (test adv : ℕ → ℕ) (target : ℕ) : ℕ → ℕ → Res ℕ
  | 0, _ => .error .hang
  | n + 1, cur => if test cur = target then .ok cur else walkPrev test adv target n (adv cur)

/-- `while (curr != stop) { arr[curr] = val; curr = next(curr); }`
(manifold_surface_mesh.cpp:663-668). -/
def relabel (next : ℕ → ℕ) (stop val : ℕ) : ℕ → ℕ → (ℕ → ℕ) → Res (ℕ → ℕ)
  | 0, _, _ => .error .hang
  | n + 1, cur, arr => if cur = stop then .ok arr else relabel next stop val n (next cur) (upd arr cur val)

namespace Mesh

/-- `Halfedge::prevOrbitFace`, halfedge_element_types.ipp:235-243. -/
def prevOrbitFace (m : Mesh) (he : ℕ) : Res ℕ := walkPrev m.heNext m.heNext he m.nHeFill he

/-- `Halfedge::prevOrbitVertex`, halfedge_element_types.ipp:244-252. -/
def prevOrbitVertex (m : Mesh) (he : ℕ) : Res ℕ :=
  walkPrev m.heNext (fun i => twin (m.heNext i)) he m.nHeFill (twin he)

/-- `Face::adjacentHalfedges`, halfedge_element_types.ipp:419-421. -/
def faceHalfedges (m : Mesh) (f : ℕ) : Res (List ℕ) := orbitList m.heNext (m.fHalfedge f) m.nHeFill

/-- `Vertex::outgoingHalfedges`, halfedge_element_types.ipp:110-112. -/
def outgoingHalfedges (m : Mesh) (v : ℕ) : Res (List ℕ) :=
  orbitList m.vNext (m.vHalfedge v) m.nHeFill

/-- `Vertex::adjacentVertices` with implicit twins (halfedge_element_types.ipp:113-115, 139-142,
180-187): the tips of the outgoing halfedges. -/
def adjacentVertices (m : Mesh) (v : ℕ) : Res (List ℕ) :=
  match m.outgoingHalfedges v with
  | .ok l => .ok (l.map m.tip)
  | .error e => .error e

/-! ### Allocation and deletion -/

/-- `getNewVertex`, surface_mesh.cpp:1371-1401. The C++ returns the index `nVerticesFillCount - 1`
after incrementing; if the (doubled) capacity is still too small the caller's next write to
`vHalfedgeArr` is out of range, which is reported here as `Err.ub`. -/
def getNewVertex (m : Mesh) : Res (Mesh × ℕ) :=
  let cap := if m.nVFill < m.nVCap then m.nVCap else m.nVCap * 2
  if INV ≤ cap then .error .oom
  else if cap ≤ m.nVFill then .error .ub
  else .ok ({ m with nVCap := cap, nVFill := m.nVFill + 1, nV := m.nV + 1 }, m.nVFill)

/-- `getNewEdgeTriple`, surface_mesh.cpp:1486-1564, implicit-twin case. Returns the even halfedge of
the pair; throws if the edge capacity is out of sync (line 1493). -/
def getNewEdgeTriple (m : Mesh) (onBoundary : Bool) : Res (Mesh × ℕ) :=
  let grow := ¬ (m.nHeFill + 1 < m.nHeCap)
  let heCap := if grow then max (m.nHeCap * 2) 2 else m.nHeCap
  let eCap := if grow then max (m.nECap * 2) 1 else m.nECap
  if ¬ grow ∧ ¬ m.nEFill < m.nECap then .error .throw
  else if INV ≤ heCap then .error .oom
  else if heCap ≤ m.nHeFill + 1 then .error .ub
  else .ok ({ m with
    nHeCap := heCap, nECap := eCap,
    nHeFill := m.nHeFill + 2, nHe := m.nHe + 2,
    nInt := if onBoundary then m.nInt + 1 else m.nInt + 2,
    nEFill := m.nEFill + 1, nE := m.nE + 1 }, m.nHeFill)

/-- `expandFaceStorage`, surface_mesh.cpp:1605-1637: double the face array, move the
boundary-loop entries to the new back, shift the face references of live exterior halfedges. -/
def expandFaceStorage (m : Mesh) : Mesh :=
  let cap := m.nFCap * 2
  { m with
    fHalfedge := fun i =>
      if cap - m.nBLFill ≤ i ∧ i < cap then m.fHalfedge (i - (cap - m.nFCap))
      else if m.nFCap - m.nBLFill ≤ i ∧ i < m.nFCap then INV
      else m.fHalfedge i,
    heFace := fun i =>
      if i < m.nHeFill ∧ m.heNext i ≠ INV ∧ m.nFFill ≤ m.heFace i then m.heFace i + (cap - m.nFCap)
      else m.heFace i,
    nFCap := cap }

/-- `getNewFace`, surface_mesh.cpp:1567-1584. `Err.ub` as in `getNewVertex`: the slot handed out
does not exist or belongs to a boundary loop. -/
def getNewFace (m : Mesh) : Res (Mesh × ℕ) :=
  let m1 := if m.nFFill + m.nBL < m.nFCap then m else m.expandFaceStorage
  if INV ≤ m1.nFCap then .error .oom
  else if m1.nFCap - m1.nBLFill ≤ m1.nFFill then .error .ub
  else .ok ({ m1 with nF := m1.nF + 1, nFFill := m1.nFFill + 1 }, m1.nFFill)

/-- `getNewBoundaryLoop`, surface_mesh.cpp:1586-1603. Like the code it returns
`nFacesCapacityCount - nBoundaryLoopsFillCount`, which is the *face* index of the new loop. -/
def getNewBoundaryLoop (m : Mesh) : Res (Mesh × ℕ) :=
  let m1 := if m.nFFill + m.nBL < m.nFCap then m else m.expandFaceStorage
  if INV ≤ m1.nFCap then .error .oom
  else if m1.nFCap - m1.nBLFill ≤ m1.nFFill then .error .ub
  else .ok ({ m1 with nBL := m1.nBL + 1, nBLFill := m1.nBLFill + 1 }, m1.nFCap - (m1.nBLFill + 1))

/-- Body of the halfedge loop of `deleteEdgeBundle`, surface_mesh.cpp:1652-1671. -/
def deleteHe (m : Mesh) (i : ℕ) : Mesh :=
  { m with
    nHe := m.nHe - 1,
    nInt := if m.heIsInterior i then m.nInt - 1 else m.nInt,
    heNext := upd m.heNext i INV,
    heVertex := upd m.heVertex i INV,
    heFace := upd m.heFace i INV }

/-- `deleteEdgeBundle`, surface_mesh.cpp:1640-1680, implicit-twin case: both halfedges of the edge
and the edge itself. -/
def deleteEdgeBundle (m : Mesh) (e : ℕ) : Mesh :=
  let m1 := (m.deleteHe (eHalfedge e)).deleteHe (twin (eHalfedge e))
  { m1 with nE := m1.nE - 1 }

/-- `deleteElement(Vertex)`, surface_mesh.cpp:1719-1727. -/
def deleteVertex (m : Mesh) (v : ℕ) : Mesh :=
  { m with vHalfedge := upd m.vHalfedge v INV, nV := m.nV - 1 }

/-- `deleteElement(Face)`, surface_mesh.cpp:1729-1737. -/
def deleteFace (m : Mesh) (f : ℕ) : Mesh :=
  { m with fHalfedge := upd m.fHalfedge f INV, nF := m.nF - 1 }

/-- `eulerCharacteristic`, manifold_surface_mesh.cpp:515-519: boundary loops count as faces. The
narrowing cast to `int` is not modelled. -/
def eulerCharacteristic (m : Mesh) : ℤ := (m.nV : ℤ) - m.nE + (m.nF + m.nBL)

/-- `genus`, manifold_surface_mesh.cpp:521-525 (C++ integer division truncates). -/
def genus (m : Mesh) : ℤ := (2 - (m.nBL : ℤ) - m.eulerCharacteristic).tdiv 2

/-! ### Validity

The specification of a well-formed manifold halfedge mesh, written from
docs/docs/surface/surface_mesh/internals.md ("Permutation halfedge mesh", "Invariants") and
`validateConnectivity` (surface_mesh.cpp:1069-1358). -/

/-- Halfedge slot `i` is in use. -/
def heLive (m : Mesh) (i : ℕ) : Prop := i < m.nHeFill ∧ m.heNext i ≠ INV

/-- Vertex slot `v` is in use. -/
def vLive (m : Mesh) (v : ℕ) : Prop := v < m.nVFill ∧ m.vHalfedge v ≠ INV

/-- Face-array slot `f` is in use, as an interior face (front) or boundary loop (back). -/
def fLive (m : Mesh) (f : ℕ) : Prop :=
  (f < m.nFFill ∨ (m.nFCap - m.nBLFill ≤ f ∧ f < m.nFCap)) ∧ m.fHalfedge f ≠ INV

/-- `he.face()` is a boundary loop. -/
def ext (m : Mesh) (i : ℕ) : Prop := m.nFFill ≤ m.heFace i

instance (m : Mesh) (i : ℕ) : Decidable (m.heLive i) := by unfold heLive; infer_instance
instance (m : Mesh) (i : ℕ) : Decidable (m.vLive i) := by unfold vLive; infer_instance
instance (m : Mesh) (i : ℕ) : Decidable (m.fLive i) := by unfold fLive; infer_instance
instance (m : Mesh) (i : ℕ) : Decidable (m.ext i) := by unfold ext; infer_instance

/-- A valid manifold halfedge mesh. -/
structure Valid (m : Mesh) : Prop where
  /-- storage: two halfedge slots per edge slot (used and reserved), fill within capacity, no index is `INVALID_IND` -/
  he_fill : m.nHeFill = 2 * m.nEFill
  he_cap : m.nHeFill ≤ m.nHeCap ∧ m.nHeCap < INV
  e_cap : m.nHeCap = 2 * m.nECap
  v_cap : m.nVFill ≤ m.nVCap ∧ m.nVCap < INV
  f_cap : m.nFFill + m.nBLFill ≤ m.nFCap ∧ m.nFCap < INV
  /-- references of live halfedges are live -/
  twin_live : ∀ i, m.heLive i → m.heLive (twin i)
  next_live : ∀ i, m.heLive i → m.heLive (m.heNext i)
  vertex_live : ∀ i, m.heLive i → m.vLive (m.heVertex i)
  face_live : ∀ i, m.heLive i → m.fLive (m.heFace i)
  /-- the halfedges of a face are exactly one cycle of `next` -/
  face_iff : ∀ i j, m.heLive i → m.heLive j → (m.heFace i = m.heFace j ↔ Orb m.heNext i j)
  /-- the halfedges leaving a vertex are exactly one cycle of `twin().next()` -/
  vertex_iff : ∀ i j, m.heLive i → m.heLive j → (m.heVertex i = m.heVertex j ↔ Orb m.vNext i j)
  /-- `v.halfedge()` leaves `v`, `f.halfedge()` lies in `f` -/
  v_he : ∀ v, m.vLive v → m.heLive (m.vHalfedge v) ∧ m.heVertex (m.vHalfedge v) = v
  f_he : ∀ f, m.fLive f → m.heLive (m.fHalfedge f) ∧ m.heFace (m.fHalfedge f) = f
  /-- no face or boundary loop of degree one -/
  deg_two : ∀ i, m.heLive i → m.heNext i ≠ i
  /-- the first halfedge of an edge is interior -/
  edge_int : ∀ e, m.heLive (eHalfedge e) → ¬ m.ext (eHalfedge e)
  /-- at most one boundary passes through a vertex, and `v.halfedge()` starts along it -/
  bdy_unique : ∀ i j, m.heLive i → m.heLive j → m.ext i → m.ext j →
    m.heVertex i = m.heVertex j → i = j
  bdy_first : ∀ i, m.heLive i → m.ext i → m.ext (twin (m.vHalfedge (m.heVertex i)))
  /-- the counters count -/
  cnt_he : m.nHe = Nat.count (fun i => m.heNext i ≠ INV) m.nHeFill
  cnt_int : m.nInt = Nat.count (fun i => m.heNext i ≠ INV ∧ m.heFace i < m.nFFill) m.nHeFill
  cnt_e : m.nE = Nat.count (fun e => m.heNext (eHalfedge e) ≠ INV) m.nEFill
  cnt_v : m.nV = Nat.count (fun v => m.vHalfedge v ≠ INV) m.nVFill
  cnt_f : m.nF = Nat.count (fun f => m.fHalfedge f ≠ INV) m.nFFill
  cnt_bl : m.nBL = m.nBLFill
  bl_live : ∀ f, m.nFCap - m.nBLFill ≤ f → f < m.nFCap → m.fHalfedge f ≠ INV

/-- The mesh is so large that storage for `k` more vertices, edges or faces could be refused. Used to bound the
outcome `Err.oom`: it is only allowed if an array would have to grow to `2^64 - 1` entries. -/
def nearLimit (m : Mesh) (k : ℕ) : Prop :=
  INV ≤ 2 * (m.nVFill + k) ∨ INV ≤ 2 * (m.nHeFill + 2 * k) ∨ INV ≤ 2 * (m.nFFill + m.nBL + k)

end Mesh
end GC
