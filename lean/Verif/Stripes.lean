import Mathlib.Analysis.Real.Pi.Bounds
import Mathlib.Algebra.Order.Floor.Ring

/-! # Isolines of stripe patterns (stripe_patterns.cpp)

Doubles are reals; the `int` variables are integers without overflow. -/

namespace GC

/-- `crossingsModulo2Pi`, stripe_patterns.cpp:251-278. -/
noncomputable def crossingsModulo2Pi (val1 val2 : ℝ) : List ℝ :=
  if val1 = val2 then [] else
  let maxCrossings := ⌈|val1 - val2| / (2 * Real.pi)⌉.toNat
  if val1 < val2 then
    (List.range maxCrossings).filterMap fun i : ℕ =>
      let k := ⌈val1 / (2 * Real.pi)⌉ + i
      let isoval := 2 * Real.pi * k
      if isoval < val2 then some ((isoval - val2) / (val1 - val2)) else none
  else
    (List.range maxCrossings).reverse.filterMap fun i : ℕ =>
      let k := ⌈val2 / (2 * Real.pi)⌉ + i
      let isoval := 2 * Real.pi * k
      if isoval < val1 then some ((isoval - val2) / (val1 - val2)) else none

/-- Access to a `std::vector`; `none` is an index out of range. -/
def vecAt (l : List ℕ) (i : ℤ) : Option ℕ := if 0 ≤ i then l[i.toNat]? else none

/-- `{x, y}` from two accesses. -/
def vecPair (x : List ℕ) (i : ℤ) (y : List ℕ) (j : ℤ) : Option (ℕ × ℕ) := do
  let a ← vecAt x i
  let b ← vecAt y j
  pure (a, b)

/-- The part of `matchCrossings` after the choice of the edge with most crossings, stripe_patterns.cpp:298-341. The assertions are left out, as in a release build. The while loops that lower
`nRemainingCrossings` to a bound are written with the number of their passes. -/
def matchSorted (IJ JK KI : List ℕ) : Option (List (ℕ × ℕ)) :=
  let nIJ : ℤ := IJ.length
  let nJK : ℤ := JK.length
  let nKI : ℤ := KI.length
  if nIJ = nJK + nKI then do
    let p ← (List.range nKI.toNat).mapM fun m : ℕ => vecPair IJ m KI (nKI - m - 1)
    let q ← (List.range nJK.toNat).mapM fun m : ℕ => vecPair IJ (nKI + m) JK (nJK - m - 1)
    pure (p ++ q)
  else do
    let nRemainingCrossings := (nIJ + nJK + nKI) / 2
    let m : ℤ := (nRemainingCrossings - nJK).toNat
    let p ← (List.range m.toNat).mapM fun i : ℕ => vecPair IJ i KI (nKI - i - 1)
    let nRemainingCrossings := nRemainingCrossings - m
    let l : ℤ := (nRemainingCrossings - (nKI - m)).toNat
    let q ← (List.range l.toNat).mapM fun i : ℕ => vecPair IJ (nIJ - 1 - i) JK i
    let nRemainingCrossings := nRemainingCrossings - l
    let r ← (List.range nRemainingCrossings.toNat).mapM fun i : ℕ => vecPair JK (nJK - 1 - i) KI i
    pure (p ++ q ++ r)

/-- `matchCrossings`, stripe_patterns.cpp:282-341. -/
def matchCrossings (c0 c1 c2 : List ℕ) : Option (List (ℕ × ℕ)) :=
  if c0.length ≥ c1.length ∧ c0.length ≥ c2.length then matchSorted c0 c1 c2
  else if c1.length ≥ c2.length ∧ c1.length ≥ c0.length then matchSorted c1 c2 c0
  else matchSorted c2 c0 c1

/-- The loop of `removeCrossings` that chooses the crossings to remove, stripe_patterns.cpp:405-420, on the entries of `values` that are left; `r` is `N - nbRemoved`. `none` is an access after the end of
`values`. The result lists the pairs set in `removed`. -/
def removeLoop (idxIJ : ℕ) : List (ℕ × ℕ) → ℕ → ℤ → Option (List (ℕ × ℕ))
  | _, 0, _ => some []
  | [], _ + 1, _ => none
  | v :: vs, r + 1, M =>
    if v.1 = idxIJ then do
      let R ← removeLoop idxIJ vs r (M - 1)
      pure (v :: R)
    else if ((r + 1 : ℕ) : ℤ) ≤ M then removeLoop idxIJ vs (r + 1) M
    else do
      let R ← removeLoop idxIJ vs r (M + 1)
      pure (v :: R)

/-- The crossings of edge `i` that are not removed, stripe_patterns.cpp:423-426. -/
def keepCrossings (R : List (ℕ × ℕ)) (i : ℕ) (p : List ℕ) : List ℕ := ((List.range p.length).filter fun j => (i, j) ∉ R).map fun j => p.getD j 0

/-- `removeCrossings`, stripe_patterns.cpp:386-429. `values` has the second parts of the entries after the sort; their order is an argument. The assertion is left out. -/
def removeCrossings (values : List (ℕ × ℕ)) (N : ℕ) (p0 p1 p2 : List ℕ) : Option (List ℕ × List ℕ × List ℕ) := do
  let n0 : ℤ := p0.length
  let n1 : ℤ := p1.length
  let n2 : ℤ := p2.length
  let R ← if n1 ≥ n2 ∧ n1 ≥ n0 then removeLoop 1 values N (n1 - n2 - n0)
    else if n2 ≥ n1 ∧ n2 ≥ n0 then removeLoop 2 values N (n2 - n0 - n1)
    else removeLoop 0 values N (n0 - n1 - n2)
  pure (keepCrossings R 0 p0, keepCrossings R 1 p1, keepCrossings R 2 p2)

end GC
