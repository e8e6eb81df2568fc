import Verif.PolygonHeat
import Verif.Intrinsic
import Verif.Stats

/-! # Boundary first flattening (boundary_first_flattening.cpp)

Vectors are functions of the index, `S` is the linear solver. Blocks of matrices and vectors are selected by the lists `origIndsA` and `origIndsB`, the form that
`blockDecomposeSquare`, `decomposeVector` and `reassembleVector` have by C37. `nInterior` is the length of the first list. -/

namespace GC
open Classical Finset

/-- What the constructor of `BFF` stores: indices of the interior and the boundary vertices (`iI`, `iB` in the order of the blocks; `iIdx`, `bIdx` by vertex), the member `L`,
the matrix `Ls` that is decomposed into blocks, and the curvatures. -/
structure Bff where
  nV : ℕ
  iI : List ℕ
  iB : List ℕ
  iIdx : ℕ → ℕ
  bIdx : ℕ → ℕ
  L : ℕ → ℕ → ℝ
  Ls : ℕ → ℕ → ℝ
  Oi : ℕ → ℝ
  Ob : ℕ → ℝ

/-- A loop that assigns `val x` at the place `key x`. -/
def scatter {β : Type} (key : β → ℕ) {α : Type} (val : β → α) (d : ℕ → α) (l : List β) : ℕ → α := l.foldl (fun d x => Function.update d (key x) (val x)) d

/-- The constructor, boundary_first_flattening.cpp:23-74. The shift is applied to a local matrix with the name of the member. `iIdx` and `bIdx` are -1 at the other vertices, where they are not read;
the vectors are uninitialised before the loops. -/
noncomputable def Mesh.bff (m : Mesh) (len : ℕ → ℝ) : Res Bff := do
  if ¬ (m.eulerCharacteristic = 2 ∧ m.nBL = 1) then .error .throw else
  let vIdx ← m.getVertexIndices
  let L ← m.cotanLaplacian len
  let vs ← m.rangeVertices
  let bIdx := number (vs.filter fun v => decide (m.vIsBoundary v))
  let iIdx := number (vs.filter fun v => decide (¬ m.vIsBoundary v))
  let isInterior := scatter vIdx (fun v => decide (¬ m.vIsBoundary v)) (fun _ => false) vs
  let sums ← m.vertexAngleSums len
  .ok { nV := m.nV, iIdx := iIdx, bIdx := bIdx, L := L, Ls := fun i j => L i j + 1e-12 * (if i = j then 1 else 0),
        iI := (List.range m.nV).filter isInterior, iB := (List.range m.nV).filter fun i => !isInterior i,
        Ob := scatter bIdx (fun v => Real.pi - sums v) (fun _ => 0) (vs.filter fun v => decide (m.vIsBoundary v)),
        Oi := scatter iIdx (fun v => 2 * Real.pi - sums v) (fun _ => 0) (vs.filter fun v => decide (¬ m.vIsBoundary v)) }

namespace Bff
variable (d : Bff)

/-- The blocks of the shifted matrix, boundary_first_flattening.cpp:55-59. -/
def Lii (i j : ℕ) : ℝ := d.Ls (d.iI.getD i 0) (d.iI.getD j 0)
def Lib (i j : ℕ) : ℝ := d.Ls (d.iI.getD i 0) (d.iB.getD j 0)
def Lbb (i j : ℕ) : ℝ := d.Ls (d.iB.getD i 0) (d.iB.getD j 0)

/-- `dirichletToNeumann`, boundary_first_flattening.cpp:131-133. -/
def dirichletToNeumann (S : LinSolver ℝ) (u : ℕ → ℝ) : ℕ → ℝ := fun b =>
  d.Ob b - (∑ i ∈ range d.iI.length, d.Lib i b * S d.iI.length d.Lii (fun i => d.Oi i - ∑ c ∈ range d.iB.length, d.Lib i c * u c) i) -
    ∑ c ∈ range d.iB.length, d.Lbb b c * u c

/-- `neumannToDirichlet`, boundary_first_flattening.cpp:135-145, with the solver of `ensureHaveLSolver` (lines 199-203) for the member `L`. -/
noncomputable def neumannToDirichlet (S : LinSolver ℝ) (k : ℕ → ℝ) : ℕ → ℝ :=
  let rhs : ℕ → ℝ := fun i => if i ∈ d.iI then d.Oi (d.iI.idxOf i) else d.Ob (d.iB.idxOf i) - k (d.iB.idxOf i)
  let fullSolution : ℕ → ℝ := fun i => -S d.nV d.L rhs i
  let uBdy : ℕ → ℝ := fun b => fullSolution (d.iB.getD b 0)
  let uMean := (∑ b ∈ range d.iB.length, uBdy b) / d.iB.length
  fun b => uBdy b - uMean

/-- One coordinate of `flattenFromBoth` for given boundary positions, boundary_first_flattening.cpp:109-129, by vertex. -/
noncomputable def extend (m : Mesh) (S : LinSolver ℝ) (bx : ℕ → ℝ) (v : ℕ) : ℝ :=
  if m.vIsBoundary v then bx (d.bIdx v)
  else S d.iI.length d.Lii (fun i => -∑ c ∈ range d.iB.length, d.Lib i c * bx c) (d.iIdx v)

end Bff

/-- State of the first loop of `computeBoundaryPositions`: `phi`, `targetLength`, the two rows of `T`, and the diagonal of `Ninv`. -/
structure BffLoop where
  phi : ℝ
  tl : ℕ → ℝ
  cs : ℕ → ℝ
  sn : ℕ → ℝ
  nn : ℕ → ℝ

namespace BffLoop
variable (m : Mesh) (len : ℕ → ℝ) (bIdx : ℕ → ℕ) (u k : ℕ → ℝ)

/-- The body of the first loop, boundary_first_flattening.cpp:159-170. -/
noncomputable def step (s : BffLoop) (he : ℕ) : BffLoop :=
  let iV := bIdx (m.heVertex he)
  { tl := Function.update s.tl iV (len (Mesh.heEdge he) * Real.exp (0.5 * (u (bIdx (m.heVertex he)) + u (bIdx (m.heVertex (twin he)))))),
    cs := Function.update s.cs iV (Real.cos s.phi), sn := Function.update s.sn iV (Real.sin s.phi),
    nn := Function.update s.nn iV (s.nn iV + len (Mesh.heEdge he)), phi := s.phi + k (bIdx (m.heVertex (twin he))) }

/-- `roundedLength`, boundary_first_flattening.cpp:174-178: `n` boundary vertices; `none` where the matrix that is inverted has determinant zero. The inverse of the
2-by-2 matrix is the adjugate over the determinant. -/
noncomputable def rounded (n : ℕ) (s : BffLoop) : Option (ℕ → ℝ) :=
  let a := ∑ i ∈ range n, s.cs i * s.nn i * s.cs i
  let b := ∑ i ∈ range n, s.cs i * s.nn i * s.sn i
  let c := ∑ i ∈ range n, s.sn i * s.nn i * s.sn i
  let px := ∑ i ∈ range n, s.cs i * s.tl i
  let py := ∑ i ∈ range n, s.sn i * s.tl i
  let det := a * c - b * b
  if det = 0 then none
  else some fun i => s.tl i - s.nn i * (s.cs i * ((c * px - b * py) / det) + s.sn i * ((a * py - b * px) / det))

/-- The body of the second loop, boundary_first_flattening.cpp:184-192: `x`, `y` and the positions. -/
noncomputable def place (s : BffLoop) (r : ℕ → ℝ) (t : (ℝ × ℝ) × (ℕ → V2)) (he : ℕ) : (ℝ × ℝ) × (ℕ → V2) :=
  let iV := bIdx (m.heVertex he)
  ((t.1.1 + r iV * s.cs iV, t.1.2 + r iV * s.sn iV), Function.update t.2 iV ⟨-t.1.1, t.1.2⟩)

end BffLoop

/-- The halfedges visited by the two nested loops over boundary loops and their halfedges, boundary_first_flattening.cpp:157-158. -/
def Mesh.bffHalfedges (m : Mesh) : Res (List ℕ) := do
  let bs ← m.rangeBoundaryLoops
  let l ← bs.mapM fun b => m.navFaceHalfedges (m.nFCap - 1 - b)
  .ok l.flatten

/-- `computeBoundaryPositions`, boundary_first_flattening.cpp:147-197. -/
noncomputable def Mesh.bffBoundary (m : Mesh) (len : ℕ → ℝ) (d : Bff) (u k : ℕ → ℝ) : Res (Option (ℕ → V2)) := do
  let hs ← m.bffHalfedges
  let s := hs.foldl (BffLoop.step m len d.bIdx u k) ⟨0, fun _ => 0, fun _ => 0, fun _ => 0, fun _ => 0⟩
  .ok ((s.rounded d.iB.length).map fun r => (hs.foldl (BffLoop.place m d.bIdx s r) ((0, 0), fun _ => ⟨0, 0⟩)).2)

end GC
