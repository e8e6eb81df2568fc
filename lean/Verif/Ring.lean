import Verif.MeshValid

/-!
# Vertex adjacency lists of a general surface mesh

A general `SurfaceMesh` (without implicit twins) keeps, for every vertex, a cyclic doubly linked
list of the incoming and one of the outgoing halfedges.  Both are stored in the same way: arrays
`next` and `prev` over the halfedges and one array over the vertices holding some member.  `Ring` is
one such triple of arrays; `add` and `remove` are the two halves of `addToVertexLists` and
`removeFromVertexLists`.  Arrays are total functions; the theorems only read at indices the code has
allocated.
-/

namespace GC

/-- `heVertInNextArr`, `heVertInPrevArr`, `vHeInStartArr` or `heVertOutNextArr`, `heVertOutPrevArr`,
`vHeOutStartArr` (`surface_mesh.h`). -/
structure Ring where
  nx : ℕ → ℕ
  pv : ℕ → ℕ
  st : ℕ → ℕ

namespace Ring

/-- One of the two blocks of `SurfaceMesh::removeFromVertexLists` (`surface_mesh.cpp:699-720`); `v` is
the tip (tail) of halfedge `i`. -/
def remove (R : Ring) (i v : ℕ) : Ring :=
  let iN := R.nx i
  let iP := R.pv i
  let nx := upd R.nx iP iN
  let pv := upd R.pv iN iP
  let nx := upd nx i INV
  let pv := upd pv i INV
  ⟨nx, pv, upd R.st v (if iP = i then INV else iP)⟩

/-- One of the two blocks of `SurfaceMesh::addToVertexLists` (`surface_mesh.cpp:721-761`). -/
def add (R : Ring) (i v : ℕ) : Ring :=
  let iN := R.st v
  if iN = INV then ⟨upd R.nx i i, upd R.pv i i, upd R.st v i⟩
  else
    let iP := R.pv iN
    let nx := upd R.nx iP i
    let pv := upd R.pv i iP
    let nx := upd nx i iN
    let pv := upd pv iN i
    ⟨nx, pv, R.st⟩

/-! ### Building the lists -/

/-- `generateVertexIterationCache` (`surface_mesh.cpp:663-695`) with `skipDead`: the live halfedges
sorted by vertex, and where each vertex starts.  The code counts degrees, sums them up and then
distributes the halfedges; `deg`, `start`, `fill` are these three loops.  `key` is `heVertex(heNext(·))`
or `heVertex(·)`. -/
def deg (dead : ℕ → Bool) (key : ℕ → ℕ) (nHe : ℕ) : ℕ → ℕ :=
  (List.range nHe).foldl (fun d h => if dead h then d else upd d (key h) (d (key h) + 1)) (fun _ => 0)

/-- The running sum of the degrees, with one extra entry (`surface_mesh.cpp:675-683`). -/
def start (d : ℕ → ℕ) : ℕ → ℕ
  | 0 => 0
  | v + 1 => start d v + d v

/-- The last loop (`surface_mesh.cpp:685-694`): state = (`currVertexCacheEntry`, the cache). -/
def fill (dead : ℕ → Bool) (key : ℕ → ℕ) (nHe : ℕ) (s : ℕ → ℕ) : (ℕ → ℕ) × (ℕ → ℕ) :=
  (List.range nHe).foldl
    (fun p h => if dead h then p else (upd p.1 (key h) (p.1 (key h) + 1), upd p.2 (p.1 (key h)) h)) (s, fun _ => 0)

/-- One of the two blocks of `initializeHalfedgeNeighbors` (`surface_mesh.cpp:313-327, 329-346`) for the
vertex whose entries are `cache[a], …, cache[b-1]`. -/
def link (R : Ring) (cache : ℕ → ℕ) (v a b : ℕ) : Ring :=
  let R := { R with st := upd R.st v (cache a) }
  (List.range (b - a)).foldl
    (fun R t => { R with
      nx := upd R.nx (cache (a + t)) (cache ((t + 1) % (b - a) + a))
      pv := upd R.pv (cache ((t + 1) % (b - a) + a)) (cache (a + t)) }) R

/-- `initializeHalfedgeNeighbors` (`surface_mesh.cpp:291-350`), one of the two lists. -/
def init (R : Ring) (dead : ℕ → Bool) (vdead : ℕ → Bool) (key : ℕ → ℕ) (nHe nV : ℕ) : Ring :=
  let s := start (deg dead key nHe)
  let cache := (fill dead key nHe s).2
  (List.range nV).foldl (fun R v => if vdead v then R else R.link cache v (s v) (s (v + 1))) R

/-- Iterating the halfedges of a vertex from one of them (`nextOutgoingNeighbor`,
`nextIncomingNeighbor`; `halfedge_element_types.ipp:107-114, 226-227`). -/
def iter (R : Ring) (h nHe : ℕ) : Res (List ℕ) := orbitList R.nx h nHe

/-! ### Specification -/

/-- `R` stores, for every vertex `v`, exactly one cyclic doubly linked list with the members
`{h | A h = some v}`; `V` are the vertices in use. -/
structure Inv (R : Ring) (A : ℕ → Option ℕ) (V : ℕ → Prop) : Prop where
  inv : A INV = none
  nx_in : ∀ h v, A h = some v → A (R.nx h) = some v
  pv_nx : ∀ h v, A h = some v → R.pv (R.nx h) = h
  single : ∀ h h' v, A h = some v → A h' = some v → Orb R.nx h h'
  st : ∀ v, V v → (R.st v = INV ∧ ∀ h, A h ≠ some v) ∨ A (R.st v) = some v

end Ring

end GC
