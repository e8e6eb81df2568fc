import Verif.MeshValid
import Mathlib.Tactic.Ring

/-!
# Normal coordinates

Model of the integer formulas of `src/surface/normal_coordinates.cpp`: how many arcs of a curve
network leave a corner or clip it off, how a coordinate changes under an edge flip or an edge
split, and how a curve is followed from triangle to triangle.

`int` is a 32 bit two's complement integer; an `int` operation which leaves its range is
undefined behaviour (`Err.ub`).  `size_t` is a natural number below `2^64` with wrapping
arithmetic.  `double` occurs only through `fmax`/`fmin` on integers (exact for `int`, rounded
for large `size_t`, see `posSize`) and through halves of integers, which are represented by
their doubles.  Orders of sides: `nij` is the coordinate of side `ij`, opposite to corner `k`.
-/

namespace GC.NC

/-- The range of `int`. -/
def inInt (x : ℤ) : Prop := -2 ^ 31 ≤ x ∧ x < 2 ^ 31

instance (x : ℤ) : Decidable (inInt x) := inferInstanceAs (Decidable (_ ∧ _))

/-- Evaluate intermediate `int` results `l`; the value is `a` unless one of them overflows. -/
def ints {α : Type} (l : List ℤ) (a : α) : Res α :=
  if ∀ x ∈ l, inInt x then .ok a else .error .ub

/-- `positivePart<int>` (`normal_coordinates.cpp:10-13`): every `int` is an exact `double`. -/
def pos (t : ℤ) : ℤ := max t 0

/-- `negativePart<int>` (`normal_coordinates.cpp:15-18`). -/
def neg (t : ℤ) : ℤ := min t 0

/-- Conversion of a `size_t` to `double`: round to nearest, ties to even, 53 bits. -/
def toDouble (x : ℕ) : ℕ :=
  if x < 2 ^ 53 then x
  else
    let s := 2 ^ (Nat.log2 x - 52)
    let q := x / s
    let r := x % s
    (if 2 * r < s then q else if s < 2 * r then q + 1 else if q % 2 = 0 then q else q + 1) * s

/-- `positivePart<size_t>` (`normal_coordinates.cpp:10-13`): the argument is converted to
`double`; converting the result back is undefined behaviour if it does not fit. -/
def posSize (x : ℕ) : Res ℕ := if toDouble x < 2 ^ 64 then .ok (toDouble x) else .error .ub

/-- Conversion of an `int` to `size_t`. -/
def toSize (x : ℤ) : ℕ := (x % 2 ^ 64).toNat

/-- Conversion of a `size_t` to `int` (modulo `2^32`, two's complement). -/
def toInt (x : ℕ) : ℤ :=
  if x % 2 ^ 32 < 2 ^ 31 then ((x % 2 ^ 32 : ℕ) : ℤ) else ((x % 2 ^ 32 : ℕ) : ℤ) - 2 ^ 32

/-- `strictDegree(int, int, int)` (`normal_coordinates.cpp:820-824`). -/
def strictDegree (nij njk nki : ℤ) : Res ℕ :=
  ints [pos nij - pos njk, pos nij - pos njk - pos nki]
    (toSize (pos (pos nij - pos njk - pos nki)))

/-- `cornerCoord(int, int, int)` (`normal_coordinates.cpp:826-830`).  The first two operations
are `int`s; subtracting a `size_t` continues in `size_t`, so the division is unsigned. -/
def cornerCoord (nij njk nki : ℤ) : Res ℤ := do
  let d1 ← strictDegree njk nki nij
  let d2 ← strictDegree nki nij njk
  ints [njk + nki, njk + nki - nij]
    (toInt (toSize ((toSize (njk + nki - nij) : ℤ) - d1 - d2) / 2))

/-- `strictCornerCoord(int, int, int)` (`normal_coordinates.cpp:832-834`). -/
def strictCornerCoord (nij njk nki : ℤ) : Res ℕ := do
  let c ← cornerCoord nij njk nki
  return toSize (pos c)

/-- The `double`s `C` of `flipNormalCoordinates`, twice their value: `-(negativePart(x) + a + b)`
for `-(…)/2.`. -/
def dC (x a b : ℤ) : ℤ := -(neg x + a + b)

/-- `flipNormalCoordinates` (`normal_coordinates.cpp:762-807`).  `dCilj` etc. are twice the
half-integers `Cilj` etc.; the right-hand side of `doubledAnswer` is a half-integer, given as its
double and truncated towards zero by the conversion to `int`. -/
def flipNormalCoordinates (nij njk nki nil nlj : ℤ) : Res ℤ :=
  let njk := pos njk
  let nki := pos nki
  let nil := pos nil
  let nlj := pos nlj
  let arcsAlongIJ := -neg nij
  let nij := pos nij
  let Eilj := pos (nlj - nij - nil)
  let Ejil := pos (nil - nlj - nij)
  let Elji := pos (nij - nil - nlj)
  let Eijk := pos (njk - nki - nij)
  let Ejki := pos (nki - nij - njk)
  let Ekij := pos (nij - njk - nki)
  let dCilj := dC (nlj - nij - nil) Ejil Elji
  let dCjil := dC (nil - nlj - nij) Eilj Elji
  let dClji := dC (nij - nil - nlj) Eilj Ejil
  let dCijk := dC (njk - nki - nij) Ejki Ekij
  let dCjki := dC (nki - nij - njk) Eijk Ekij
  let dCkij := dC (nij - njk - nki) Eijk Ejki
  let doubledAnswer := (2 * dClji + 2 * dCkij + |dCjil - dCjki| + |dCilj - dCijk|
    - 2 * Elji - 2 * Ekij + 4 * Eilj + 4 * Eijk + 4 * Ejil + 4 * Ejki).tdiv 2
  let answer := doubledAnswer.tdiv 2 + arcsAlongIJ
  ints [arcsAlongIJ,
      nlj - nij, nlj - nij - nil, nil - nlj, nil - nlj - nij, nij - nil, nij - nil - nlj,
      njk - nki, njk - nki - nij, nki - nij, nki - nij - njk, nij - njk, nij - njk - nki,
      dCilj, dCjil, dClji, dCijk, dCjki, dCkij,
      2 * Eilj, 2 * Eijk, 2 * Ejil, 2 * Ejki, doubledAnswer, answer]
    answer

/-- The first two lines of each count in `computeInteriorEdgeSplitDataCombinatorial`
(`normal_coordinates.cpp:245-246, 252-253`): `positivePart(strictCornerCoord(…) -
positivePart(n))`, where the difference is a `size_t`. -/
def beyond (c : ℕ) (n : ℤ) : Res ℕ := posSize (toSize ((c : ℤ) - pos n))

/-- One of the counts `n1`, `n3` of `computeInteriorEdgeSplitDataCombinatorial`, the crossings of
the new edge from the split point of `ij` to the opposite corner `k`
(`normal_coordinates.cpp:240-261`); `nj` and `ni` crossings lie on the half next to `j` and
next to `i`. -/
def splitCount (nij njk nki nj ni : ℤ) : Res ℤ := do
  let cj ← strictCornerCoord nki nij njk
  let x1 ← beyond cj nj
  let ci ← strictCornerCoord njk nki nij
  let x2 ← beyond ci ni
  let ck ← strictCornerCoord nij njk nki
  let ei ← strictDegree njk nki nij
  let ej ← strictDegree nki nij njk
  return toInt (toSize ((x1 : ℤ) + x2 + ck + ei + ej))

/-- `computeInteriorEdgeSplitDataCombinatorial` (`normal_coordinates.cpp:236-272`), in terms of
the coordinates of the five edges around `ij`.  The `else` branch takes `fmax`es of `int`s. -/
def edgeSplitData (nij njk nki nil nlj : ℤ) (iSeg : ℕ) : Res (ℤ × ℤ × ℤ × ℤ) :=
  if 0 < nij then do
    let n2 := toInt (toSize (nij - iSeg))
    let n4 := toInt (toSize iSeg)
    let n1 ← splitCount nij nlj nil n2 n4
    let n3 ← splitCount nij njk nki n2 n4
    return (n1, n2, n3, n4)
  else .ok (max nil (max nlj 0), nij, max njk (max nki 0), nij)

/-! ### On a mesh -/

section mesh

variable (m : Mesh) (n : ℕ → ℤ)

/-- The coordinate of the edge of a halfedge. -/
def co (h : ℕ) : ℤ := n (Mesh.heEdge h)

/-- `NormalCoordinates::strictDegree(Corner)` (`normal_coordinates.cpp:640-646`); a corner is the
halfedge leaving it. -/
def degreeAt (h : ℕ) : Res ℕ :=
  strictDegree (co n (m.heNext h)) (co n (m.heNext (m.heNext h))) (co n h)

/-- `NormalCoordinates::strictCornerCoord(Corner)` (`normal_coordinates.cpp:649-655`). -/
def cornerAt (h : ℕ) : Res ℕ :=
  strictCornerCoord (co n (m.heNext h)) (co n (m.heNext (m.heNext h))) (co n h)

/-- `NormalCoordinates::stepTopologicalCurve` (`normal_coordinates.cpp:663-681`): `none` where
the code returns `true` (the curve ends in a vertex), otherwise the next crossing. -/
def step (he : ℕ) (index : ℤ) : Res (Option (ℕ × ℤ)) := do
  let he := twin he
  let cikj ← cornerAt m n (m.heNext he)
  let cjik ← cornerAt m n he
  let nij := pos (co n he)
  if index < toInt cikj then return some (m.heNext he, index)
  else if nij - toInt cjik ≤ index then
    let nkj := pos (co n (m.heNext (m.heNext he)))
    ints [nkj + index, nkj + index - nij]
      (some (m.heNext (m.heNext he), nkj + index - nij))
  else return none

/-- The first crossing of `topologicalTrace(Corner, int)` (`normal_coordinates.cpp:361-375`):
the curve with number `index` leaving corner `h` crosses the opposite side. -/
def fromCorner (h : ℕ) (index : ℤ) : Res (ℕ × ℤ) := do
  let d ← degreeAt m n h
  if d = 0 then .error .throw
  else
    let offset := pos (co n h)
    ints [index + offset] (m.heNext h, index + offset)

end mesh

end GC.NC
