import Verif.Nav

/-!
# `shortestEdgePath` and `vertexDijkstraDistanceWithinRadius`

Code modelled: src/surface/mesh_graph_algorithms.cpp:14-84 and 87-124.

Lengths are elements of an arbitrary linear order `R` with an addition `add` about which nothing is assumed here; in
particular rounded addition is allowed. The priority queue is a list and `pop` takes out one of its smallest elements;
which one is left open (`IsPop`). The hash maps are association lists, newest entry first. `req` is the require count
of the edge lengths of the geometry. Loops have fuel.
-/

namespace GC.Dij

variable {R : Type} [LinearOrder R]

/-- What the searches see of mesh and geometry. -/
structure Graph (R : Type) where
  /-- `v.outgoingHalfedges()` -/
  out : ℕ → Res (List ℕ)
  /-- `he.vertex()` -/
  vert : ℕ → ℕ
  /-- `he.twin().vertex()` -/
  far : ℕ → ℕ
  /-- `geom.edgeLengths[he.edge()]` -/
  len : ℕ → R
  add : R → R → R
  zero : R

/-- `top()` and `pop()` of the priority queue: some smallest element, and the others. -/
def IsPop {α : Type} (pop : List (R × α) → Option ((R × α) × List (R × α))) : Prop :=
  pop [] = none ∧ ∀ q, q ≠ [] → ∃ x r, pop q = some (x, r) ∧ q.Perm (x :: r) ∧ ∀ y ∈ q, x.1 ≤ y.1

variable (G : Graph R) (pop : List (R × ℕ) → Option ((R × ℕ) × List (R × ℕ)))

/-- `vertexDiscovered`, mesh_graph_algorithms.cpp:33-35. -/
def discovered (s : ℕ) (inc : List (ℕ × ℕ)) (v : ℕ) : Bool := v == s || (inc.lookup v).isSome

/-- `enqueueVertexNeighbors`, mesh_graph_algorithms.cpp:36-44. -/
def enqueue (s : ℕ) (inc : List (ℕ × ℕ)) (q : List (R × ℕ)) (v : ℕ) (dist : R) : Res (List (R × ℕ)) :=
  match G.out v with
  | .error e => .error e
  | .ok l => .ok (l.foldl (fun q he =>
      if !discovered s inc (G.far he) then (G.add dist (G.len he), he) :: q else q) q)

/-- The walk back, mesh_graph_algorithms.cpp:65-71. A missing entry is a default constructed halfedge, whose vertex is
undefined. -/
def walk (s : ℕ) (inc : List (ℕ × ℕ)) : ℕ → ℕ → List ℕ → Res (List ℕ)
  | fuel, v, path =>
    if v = s then .ok path
    else match inc.lookup v with
      | none => .error .ub
      | some he => match fuel with
        | 0 => .error .hang
        | fuel + 1 => walk s inc fuel (G.vert he) (path ++ [he])

/-- The main loop, mesh_graph_algorithms.cpp:49-80. -/
def search (s t : ℕ) : ℕ → List (ℕ × ℕ) → List (R × ℕ) → Res (List ℕ)
  | 0, _, _ => .error .hang
  | fuel + 1, inc, q => match pop q with
    | none => .ok []
    | some ((currDist, he), q) =>
      let currVert := G.far he
      if discovered s inc currVert then search s t fuel inc q
      else
        let inc := (currVert, he) :: inc
        if currVert = t then (walk G s inc inc.length currVert []).map List.reverse
        else match enqueue G s inc q currVert currDist with
          | .error e => .error e
          | .ok q => search s t fuel inc q

/-- `shortestEdgePath`, mesh_graph_algorithms.cpp:14-84. Returns the path and the require count. -/
def shortestEdgePath (fuel s t : ℕ) (req : ℤ) : Res (List ℕ × ℤ) :=
  if s = t then .ok ([], req)
  else
    let req := req + 1
    match enqueue G s [] [] s G.zero with
    | .error e => .error e
    | .ok q => match search G pop s t fuel [] q with
      | .error e => .error e
      | .ok path => .ok (path, req - 1)

/-! ### Distances within a radius -/

/-- What this search sees: the pairs of `e.otherVertex(v)` and `geom.edgeLengths[e]` for `e` in `v.adjacentEdges()`. -/
structure EGraph (R : Type) where
  nbr : ℕ → Res (List (ℕ × R))
  add : R → R → R
  zero : R

variable (H : EGraph R)

/-- The main loop, mesh_graph_algorithms.cpp:104-121. -/
def within (rad : R) : ℕ → List (ℕ × R) → List (R × ℕ) → Res (List (ℕ × R))
  | 0, _, _ => .error .hang
  | fuel + 1, dist, q => match pop q with
    | none => .ok dist
    | some ((currDist, currVert), q) =>
      if (dist.lookup currVert).isSome then within rad fuel dist q
      else
        let dist := (currVert, currDist) :: dist
        match H.nbr currVert with
        | .error e => .error e
        | .ok l => within rad fuel dist (l.foldl (fun q wl =>
            let targetDist := H.add currDist wl.2
            if targetDist ≤ rad ∧ !(dist.lookup wl.1).isSome then (targetDist, wl.1) :: q else q) q)

/-- `vertexDijkstraDistanceWithinRadius`, mesh_graph_algorithms.cpp:88-129. There is no `unrequire`. -/
def distancesWithin (fuel s : ℕ) (rad : R) (req : ℤ) : Res (List (ℕ × R) × ℤ) :=
  match within pop H rad fuel [] [(H.zero, s)] with
  | .error e => .error e
  | .ok d => .ok (d, req + 1)

/-! ### Instances for a manifold mesh -/

/-- Halfedges of a manifold mesh; `lens` are the edge lengths. -/
def meshGraph (m : Mesh) (lens : ℕ → R) (add : R → R → R) (zero : R) : Graph R where
  out := m.navOutgoing
  vert := m.heVertex
  far := fun he => m.heVertex (twin he)
  len := fun he => lens (Mesh.heEdge he)
  add := add
  zero := zero

/-- `Edge::otherVertex`, halfedge_element_types.ipp:300-306. -/
def otherVertex (m : Mesh) (e v : ℕ) : ℕ :=
  if m.heVertex (Mesh.eHalfedge e) = v then m.tip (Mesh.eHalfedge e) else m.heVertex (Mesh.eHalfedge e)

/-- Edges of a manifold mesh. -/
def meshEGraph (m : Mesh) (lens : ℕ → R) (add : R → R → R) (zero : R) : EGraph R where
  nbr := fun v => (m.navVertexEdges v).map (List.map (fun e => (otherVertex m e v, lens e)))
  add := add
  zero := zero

end GC.Dij
