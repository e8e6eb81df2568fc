import Verif.Loop
import Mathlib.Data.Complex.Basic

/-! # Sparse matrices and block decomposition

Simplifications: a sparse matrix is its size and the list of its stored entries in the order in which the `InnerIterator` loop visits
them; Eigen's sorting and summing of duplicates in `setFromTriplets` is reflected by `coeff`, which sums all entries at one place.
`int` row and column numbers are natural numbers. Freshly allocated Eigen vectors hold arbitrary values, the argument `junk`. -/

namespace GC

/-- One `Eigen::Triplet`. -/
structure Trip (T : Type) where
  row : ℕ
  col : ℕ
  val : T

/-- `SparseMatrix<T>`. -/
structure Sp (T : Type) where
  rows : ℕ
  cols : ℕ
  ents : List (Trip T)

namespace Sp
variable {T : Type}

/-- All stored entries lie inside the matrix (an Eigen invariant). -/
def WF (m : Sp T) : Prop := ∀ e ∈ m.ents, e.row < m.rows ∧ e.col < m.cols

/-- The matrix entry at `(i, j)`. -/
def coeff [AddCommMonoid T] (m : Sp T) (i j : ℕ) : T := (m.ents.map (fun e => if e.row = i ∧ e.col = j then e.val else 0)).sum

/-- `setFromTriplets` on a matrix of the given size. -/
def ofTriplets (rows cols : ℕ) (l : List (Trip T)) : Res (Sp T) :=
  if ∀ e ∈ l, e.row < rows ∧ e.col < cols then .ok ⟨rows, cols, l⟩ else .error .ub

/-- The body of the loop over `mats` in `verticalStack`, linear_algebra_utilities.ipp:31-48: triplets so far and `nRowsTot`. -/
def vStep (nCols : ℕ) (s : List (Trip T) × ℕ) (mat : Sp T) : Res (List (Trip T) × ℕ) :=
  if mat.cols ≠ nCols then .error .throw
  else .ok (s.1 ++ mat.ents.map (fun e => ⟨e.row + s.2, e.col, e.val⟩), s.2 + mat.rows)

/-- `verticalStack`, linear_algebra_utilities.ipp:22-55. -/
def verticalStack (mats : List (Sp T)) : Res (Sp T) :=
  match mats with
  | [] => .error .throw
  | m0 :: _ => match mats.foldlM (vStep m0.cols) ([], 0) with
    | .error e => .error e
    | .ok (trips, nRowsTot) => ofTriplets nRowsTot m0.cols trips

/-- The body of the loop over `mats` in `horizontalStack`, linear_algebra_utilities.ipp:66-83. -/
def hStep (nRows : ℕ) (s : List (Trip T) × ℕ) (mat : Sp T) : Res (List (Trip T) × ℕ) :=
  if mat.rows ≠ nRows then .error .throw
  else .ok (s.1 ++ mat.ents.map (fun e => ⟨e.row, e.col + s.2, e.val⟩), s.2 + mat.cols)

/-- `horizontalStack`, linear_algebra_utilities.ipp:57-90. -/
def horizontalStack (mats : List (Sp T)) : Res (Sp T) :=
  match mats with
  | [] => .error .throw
  | m0 :: _ => match mats.foldlM (hStep m0.rows) ([], 0) with
    | .error e => .error e
    | .ok (trips, nColsTot) => ofTriplets m0.rows nColsTot trips

/-- `identityMatrix`, linear_algebra_utilities.ipp:1-6. -/
def identity [One T] (n : ℕ) : Sp T := ⟨n, n, (List.range n).map (fun i => ⟨i, i, 1⟩)⟩

/-- `shiftDiagonal`, linear_algebra_utilities.ipp:9-19. -/
def shiftDiagonal [One T] [Mul T] (m : Sp T) (shift : T) : Res (Sp T) :=
  if m.cols ≠ m.rows then .error .throw
  else .ok ⟨m.rows, m.cols, m.ents ++ ((identity (T := T) m.rows).ents.map (fun e => ⟨e.row, e.col, shift * e.val⟩))⟩

end Sp

/-- `BlockDecompositionResult<T>`, linear_algebra_utilities.h:76-91. -/
structure BlockDec (T : Type) where
  origIndsA : List ℕ
  origIndsB : List ℕ
  newInds : List ℕ
  isA : List Bool
  AA : Sp T
  AB : Sp T
  BA : Sp T
  BB : Sp T

namespace BlockDec
variable {T : Type}

/-- "Count sizes", linear_algebra_utilities.ipp:254-263. -/
def countStep (Aset : List Bool) (s : ℕ × ℕ) (i : ℕ) : Res (ℕ × ℕ) :=
  match rd Aset i with
  | .error e => .error e
  | .ok a => .ok (if a then (s.1 + 1, s.2) else (s.1, s.2 + 1))

/-- State of the loop "Index": `origIndsA`, `origIndsB`, `newInds`, `Aind`, `Bind`. -/
structure IdxState where
  oA : List ℕ
  oB : List ℕ
  nI : List ℕ
  a : ℕ
  b : ℕ

/-- "Index", linear_algebra_utilities.ipp:283-295. -/
def indexStep (Aset : List Bool) (s : IdxState) (i : ℕ) : Res IdxState :=
  match rd Aset i with
  | .error e => .error e
  | .ok true => match wr s.oA s.a i, wr s.nI i s.a with
    | .ok oA, .ok nI => .ok ⟨oA, s.oB, nI, s.a + 1, s.b⟩
    | _, _ => .error .ub
  | .ok false => match wr s.oB s.b i, wr s.nI i s.b with
    | .ok oB, .ok nI => .ok ⟨s.oA, oB, nI, s.a, s.b + 1⟩
    | _, _ => .error .ub

/-- The four lists of triplets. -/
structure Trips (T : Type) where
  AA : List (Trip T)
  AB : List (Trip T)
  BA : List (Trip T)
  BB : List (Trip T)

/-- "Split", linear_algebra_utilities.ipp:302-327. -/
def splitStep (Aset : List Bool) (nI : List ℕ) (buildB : Bool) (s : Trips T) (e : Trip T) : Res (Trips T) :=
  match rd Aset e.row, rd Aset e.col, rd nI e.row, rd nI e.col with
  | .ok rowA, .ok colA, .ok r, .ok c =>
    let t : Trip T := ⟨r, c, e.val⟩
    let s := if rowA ∧ colA then { s with AA := s.AA ++ [t] } else s
    let s := if rowA ∧ ¬ colA then { s with AB := s.AB ++ [t] } else s
    let s := if buildB ∧ ¬ rowA ∧ colA then { s with BA := s.BA ++ [t] } else s
    let s := if buildB ∧ ¬ rowA ∧ ¬ colA then { s with BB := s.BB ++ [t] } else s
    .ok s
  | _, _, _, _ => .error .ub

/-- `blockDecomposeSquare`, linear_algebra_utilities.ipp:246-337. -/
def decompose (m : Sp T) (Aset : List Bool) (buildB : Bool) (junk : ℕ → ℕ) : Res (BlockDec T) :=
  if m.rows ≠ m.cols then .error .throw
  else
    let n := m.rows
    match (List.range n).foldlM (countStep Aset) (0, 0) with
    | .error e => .error e
    | .ok (nA, nB) =>
      match (List.range n).foldlM (indexStep Aset) ⟨(List.range nA).map junk, (List.range nB).map junk, (List.range n).map junk, 0, 0⟩ with
      | .error e => .error e
      | .ok s =>
        match m.ents.foldlM (splitStep Aset s.nI buildB) ⟨[], [], [], []⟩ with
        | .error e => .error e
        | .ok t =>
          match Sp.ofTriplets nA nA t.AA, Sp.ofTriplets nA nB t.AB,
              (if buildB then Sp.ofTriplets nB nA t.BA else Sp.ofTriplets 0 0 []),
              (if buildB then Sp.ofTriplets nB nB t.BB else Sp.ofTriplets 0 0 []) with
          | .ok AA, .ok AB, .ok BA, .ok BB => .ok ⟨s.oA, s.oB, s.nI, Aset, AA, AB, BA, BB⟩
          | _, _, _, _ => .error .ub

/-- One of the loops of `decomposeVector`: `out[i] = vec[inds[i]]`. -/
def gatherStep (vec : List T) (inds : List ℕ) (out : List T) (i : ℕ) : Res (List T) :=
  match rd inds i with
  | .error e => .error e
  | .ok k => match rd vec k with
    | .error e => .error e
    | .ok x => wr out i x

/-- `decomposeVector`, linear_algebra_utilities.ipp:340-353. -/
def decomposeVector (d : BlockDec T) (vec : List T) (junk : ℕ → T) : Res (List T × List T) :=
  match (List.range d.origIndsA.length).foldlM (gatherStep vec d.origIndsA) ((List.range d.origIndsA.length).map junk) with
  | .error e => .error e
  | .ok a =>
    match (List.range d.origIndsB.length).foldlM (gatherStep vec d.origIndsB) ((List.range d.origIndsB.length).map junk) with
    | .error e => .error e
    | .ok b => .ok (a, b)

/-- One of the loops of `reassembleVector`: `out[inds[i]] = vec[i]`. -/
def scatterStep (vec : List T) (inds : List ℕ) (out : List T) (i : ℕ) : Res (List T) :=
  match rd inds i with
  | .error e => .error e
  | .ok k => match rd vec i with
    | .error e => .error e
    | .ok x => wr out k x

/-- `reassembleVector`, linear_algebra_utilities.ipp:356-369. -/
def reassembleVector (d : BlockDec T) (vecA vecB : List T) (junk : ℕ → T) : Res (List T) :=
  match (List.range vecA.length).foldlM (scatterStep vecA d.origIndsA) ((List.range d.newInds.length).map junk) with
  | .error e => .error e
  | .ok out => (List.range vecB.length).foldlM (scatterStep vecB d.origIndsB) out

end BlockDec

/-- The triplets of `complexToReal` for one stored entry, linear_algebra_utilities.cpp:17-24. -/
def c2rEntry (e : Trip ℂ) : List (Trip ℝ) :=
  [⟨2 * e.row + 0, 2 * e.col + 0, e.val.re⟩, ⟨2 * e.row + 0, 2 * e.col + 1, -e.val.im⟩,
   ⟨2 * e.row + 1, 2 * e.col + 0, e.val.im⟩, ⟨2 * e.row + 1, 2 * e.col + 1, e.val.re⟩]

/-- `complexToReal` of a matrix, linear_algebra_utilities.cpp:5-32. -/
def complexToRealMat (m : Sp ℂ) : Res (Sp ℝ) := Sp.ofTriplets (2 * m.rows) (2 * m.cols) (m.ents.flatMap c2rEntry)

/-- One step of the loop of `complexToReal` of a vector. -/
def c2rStep (vec : List ℂ) (out : List ℝ) (i : ℕ) : Res (List ℝ) :=
  match rd vec i with
  | .error e => .error e
  | .ok z => match wr out (2 * i) z.re with
    | .error e => .error e
    | .ok out => wr out (2 * i + 1) z.im

/-- `complexToReal` of a vector, linear_algebra_utilities.cpp:34-46. -/
def complexToRealVec (vec : List ℂ) (junk : ℕ → ℝ) : Res (List ℝ) :=
  (List.range vec.length).foldlM (c2rStep vec) ((List.range (2 * vec.length)).map junk)

/-- One step of the loop of `realToComplex`. -/
def r2cStep (v : List ℝ) (out : List ℂ) (i : ℕ) : Res (List ℂ) :=
  match rd v (2 * i), rd v (2 * i + 1) with
  | .ok x, .ok y => wr out i ⟨x, y⟩
  | _, _ => .error .ub

/-- `realToComplex`, linear_algebra_utilities.cpp:49-60. -/
def realToComplex (v : List ℝ) (junk : ℕ → ℂ) : Res (List ℂ) :=
  (List.range (v.length / 2)).foldlM (r2cStep v) ((List.range (v.length / 2)).map junk)

end GC
