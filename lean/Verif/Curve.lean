import Verif.Mesh
import Mathlib.Analysis.Calculus.Deriv.Add
import Mathlib.Analysis.Calculus.Deriv.Mul
import Mathlib.Analysis.Calculus.Deriv.Pow
import Mathlib.Algebra.Order.Floor.Semiring

/-! # HermiteCurve

The parameter and the coefficients are real numbers, `T` is any real vector space. Reading a node that does not
exist is undefined behaviour (`Err.ub`). -/

namespace GC
namespace Hermite
variable {T : Type} [AddCommGroup T] [Module ℝ T]

/-- `length`, curve.ipp:118-120. -/
def length (nodes : List (T × T)) : ℝ := nodes.length

/-- The Hermite cubic and its derivatives, curve.ipp:49-53 and 93-112. -/
noncomputable def cubic (p0 m0 p1 m1 : T) : ℕ → ℝ → T
  | 0, u => (2 * (u * u * u) - 3 * (u * u) + 1) • p0 + (u * u * u - 2 * (u * u) + u) • m0 +
      (3 * (u * u) - 2 * (u * u * u)) • p1 + (u * u * u - u * u) • m1
  | 1, u => (6 * (u * u) - 6 * u) • p0 + (3 * (u * u) - 4 * u + 1) • m0 + (6 * u - 6 * (u * u)) • p1 + (3 * (u * u) - 2 * u) • m1
  | 2, u => (12 * u - 6) • p0 + (6 * u - 4) • m0 + (6 - 12 * u) • p1 + (6 * u - 2) • m1
  | 3, _ => (12 : ℝ) • p0 + (6 : ℝ) • m0 + (-12 : ℝ) • p1 + (6 : ℝ) • m1
  | _, _ => 0

open Classical in
/-- `value`, curve.ipp:30-54. -/
noncomputable def value (nodes : List (T × T)) (t : ℝ) : Res T :=
  match nodes with
  | [] => .ok 0
  | [a] => .ok (a.1 + t • a.2)
  | a :: b :: l =>
    let nodes := a :: b :: l
    if t < 0 then .ok (a.1 + t • a.2)
    else if t > length nodes then
      match nodes[nodes.length - 1]? with
      | some z => .ok (z.1 + (t - (nodes.length - 1 : ℕ)) • z.2)
      | none => .error .ub
    else match nodes[⌊t⌋₊ + 0]?, nodes[⌊t⌋₊ + 1]? with
      | some x, some y => .ok (cubic x.1 x.2 y.1 y.2 0 (t - ⌊t⌋₊))
      | _, _ => .error .ub

open Classical in
/-- `derivative`, curve.ipp:57-115. -/
noncomputable def derivative (nodes : List (T × T)) (t : ℝ) (k : ℕ) : Res T :=
  if k = 0 then value nodes t
  else match nodes with
  | [] => .ok 0
  | [a] => if k = 1 then .ok a.2 else .ok 0
  | a :: b :: l =>
    let nodes := a :: b :: l
    if t < 0 then (if k = 1 then .ok a.2 else .ok 0)
    else if t > length nodes then
      match nodes[nodes.length - 1]? with
      | some z => if k = 1 then .ok z.2 else .ok 0
      | none => .error .ub
    else match nodes[⌊t⌋₊ + 0]?, nodes[⌊t⌋₊ + 1]? with
      | some x, some y => .ok (cubic x.1 x.2 y.1 y.2 k (t - ⌊t⌋₊))
      | _, _ => .error .ub

end Hermite
end GC
