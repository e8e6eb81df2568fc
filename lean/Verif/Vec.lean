import Mathlib.Analysis.SpecialFunctions.Complex.Arg
import Mathlib.Analysis.SpecialFunctions.Trigonometric.Inverse
import Mathlib.Analysis.Quaternion

/-! # Vector2, Vector3 and Quaternion

The coordinates are real numbers: rounding, overflow and NaN of `double` are not modelled. Division by zero
gives inf or NaN in the code and 0 in Lean; the theorems exclude it by hypothesis. `std::atan2(y, x)` is
`Complex.arg (x + iy)`, `std::acos` is `Real.arccos`. -/

namespace GC

/-- `Vector2`, vector2.h:15. -/
@[ext] structure V2 where
  x : ℝ
  y : ℝ

/-- `Vector3`, vector3.h:15. -/
@[ext] structure V3 where
  x : ℝ
  y : ℝ
  z : ℝ

namespace V2

/-- vector2.ipp:4-10 and 19-27. -/
def add (u v : V2) : V2 := ⟨u.x + v.x, u.y + v.y⟩
def sub (u v : V2) : V2 := ⟨u.x - v.x, u.y - v.y⟩
def mul (u v : V2) : V2 := ⟨u.x * v.x - u.y * v.y, u.x * v.y + u.y * v.x⟩
def smul (u : V2) (s : ℝ) : V2 := ⟨u.x * s, u.y * s⟩
/-- `operator/(double)`: multiplication by the reciprocal. -/
noncomputable def sdiv (u : V2) (s : ℝ) : V2 := ⟨u.x * (1 / s), u.y * (1 / s)⟩
/-- Complex division. -/
noncomputable def div (u v : V2) : V2 :=
  sdiv ⟨u.x * v.x + u.y * v.y, u.y * v.x - u.x * v.y⟩ (v.x * v.x + v.y * v.y)
def neg (u : V2) : V2 := ⟨-u.x, -u.y⟩
def conj (u : V2) : V2 := ⟨u.x, -u.y⟩
noncomputable def inv (u : V2) : V2 := div ⟨1, 0⟩ u
def norm2 (u : V2) : ℝ := u.x * u.x + u.y * u.y
noncomputable def norm (u : V2) : ℝ := Real.sqrt (u.x * u.x + u.y * u.y)
noncomputable def normalize (u : V2) : V2 := smul u (1 / Real.sqrt (u.x * u.x + u.y * u.y))
noncomputable def normalizeCutoff (u : V2) (mag : ℝ) : V2 :=
  let len := Real.sqrt (u.x * u.x + u.y * u.y)
  let len := if len ≤ mag then 1 else len
  smul u (1 / len)
/-- `rotateCW`, `rotateCCW`, `rotate`, `rotate90`, `fromAngle`. -/
noncomputable def rotateCW (u : V2) (th : ℝ) : V2 :=
  ⟨Real.cos th * u.x + Real.sin th * u.y, -Real.sin th * u.x + Real.cos th * u.y⟩
noncomputable def rotateCCW (u : V2) (th : ℝ) : V2 := rotateCW u (-th)
noncomputable def rotate (u : V2) (th : ℝ) : V2 := rotateCW u th
def rotate90 (u : V2) : V2 := ⟨-u.y, u.x⟩
noncomputable def fromAngle (th : ℝ) : V2 := ⟨Real.cos th, Real.sin th⟩
def dot (u v : V2) : ℝ := u.x * v.x + u.y * v.y
def cross (u v : V2) : ℝ := u.x * v.y - u.y * v.x
noncomputable def arg (u : V2) : ℝ := Complex.arg ⟨u.x, u.y⟩
noncomputable def angle (u v : V2) : ℝ := Real.arccos (max (-1) (min 1 (dot (normalize u) (normalize v))))
noncomputable def orientedAngle (u v : V2) : ℝ :=
  Complex.arg ⟨dot (normalize u) (normalize v), cross (normalize u) (normalize v)⟩

end V2

namespace V3

/-- vector3.ipp:3-19, 53-73. -/
def add (u v : V3) : V3 := ⟨u.x + v.x, u.y + v.y, u.z + v.z⟩
def sub (u v : V3) : V3 := ⟨u.x - v.x, u.y - v.y, u.z - v.z⟩
def smul (u : V3) (s : ℝ) : V3 := ⟨u.x * s, u.y * s, u.z * s⟩
noncomputable def sdiv (u : V3) (s : ℝ) : V3 := ⟨u.x * (1 / s), u.y * (1 / s), u.z * (1 / s)⟩
def neg (u : V3) : V3 := ⟨-u.x, -u.y, -u.z⟩
/-- `operator*(T, Vector3)`. -/
def lmul (s : ℝ) (u : V3) : V3 := ⟨s * u.x, s * u.y, s * u.z⟩
noncomputable def norm (u : V3) : ℝ := Real.sqrt (u.x * u.x + u.y * u.y + u.z * u.z)
def norm2 (u : V3) : ℝ := u.x * u.x + u.y * u.y + u.z * u.z
noncomputable def normalize (u : V3) : V3 := smul u (1 / Real.sqrt (u.x * u.x + u.y * u.y + u.z * u.z))
def cross (u v : V3) : V3 := ⟨u.y * v.z - u.z * v.y, u.z * v.x - u.x * v.z, u.x * v.y - u.y * v.x⟩
def dot (u v : V3) : ℝ := u.x * v.x + u.y * v.y + u.z * v.z
/-- vector3.ipp:75-77. -/
noncomputable def angle (u v : V3) : ℝ := Real.arccos (max (-1) (min 1 (dot (normalize u) (normalize v))))
/-- vector3.ipp:79-89. -/
noncomputable def angleInPlane (u v normal : V3) : ℝ :=
  let N := normalize normal
  let uPlane := normalize (sub u (lmul (dot u N) N))
  let basisY := normalize (cross normal uPlane)
  Complex.arg ⟨dot v uPlane, dot v basisY⟩
open Classical in
/-- vector3.ipp:113-130. -/
noncomputable def rotateAround (u axis : V3) (th : ℝ) : V3 :=
  let axisN := normalize axis
  let parallelComp := smul axisN (dot u axisN)
  let tangentComp := sub u parallelComp
  if norm2 tangentComp > 0 then
    let basisX := normalize tangentComp
    let basisY := cross axisN basisX
    let tangentMag := norm tangentComp
    add (lmul tangentMag (add (lmul (Real.cos th) basisX) (lmul (Real.sin th) basisY))) parallelComp
  else parallelComp
/-- vector3.ipp:146. -/
def removeComponent (u unitDir : V3) : V3 := sub u (smul unitDir (dot unitDir u))
open Classical in
/-- vector3.ipp:148-159. -/
noncomputable def buildTangentBasis (u : V3) : V3 × V3 :=
  let unitDir := normalize u
  let testVec : V3 := if |dot ⟨1, 0, 0⟩ unitDir| > 0.9 then ⟨0, 1, 0⟩ else ⟨1, 0, 0⟩
  let basisX := normalize (cross testVec unitDir)
  let basisY := normalize (cross unitDir basisX)
  (basisX, basisY)

end V3

/-- `Quaternion`, quaternion.h. -/
@[ext] structure Quat where
  s : ℝ
  v : V3

namespace Quat

/-- quaternion.cpp:121-155. -/
def add (p q : Quat) : Quat := ⟨p.s + q.s, V3.add p.v q.v⟩
def sub (p q : Quat) : Quat := ⟨p.s - q.s, V3.sub p.v q.v⟩
def neg (p : Quat) : Quat := ⟨-p.s, V3.neg p.v⟩
def smul (p : Quat) (c : ℝ) : Quat := ⟨p.s * c, V3.smul p.v c⟩
noncomputable def sdiv (p : Quat) (c : ℝ) : Quat := ⟨p.s / c, V3.sdiv p.v c⟩
/-- Hamilton product, quaternion.cpp:199-208. -/
def mul (p q : Quat) : Quat :=
  ⟨p.s * q.s - V3.dot p.v q.v, V3.add (V3.add (V3.lmul p.s q.v) (V3.lmul q.s p.v)) (V3.cross p.v q.v)⟩
/-- quaternion.cpp:216-250. -/
def bar (p : Quat) : Quat := ⟨p.s, V3.neg p.v⟩
def norm2 (p : Quat) : ℝ := p.s * p.s + V3.dot p.v p.v
noncomputable def norm (p : Quat) : ℝ := Real.sqrt (p.s * p.s + p.v.x * p.v.x + p.v.y * p.v.y + p.v.z * p.v.z)
noncomputable def inv (p : Quat) : Quat := sdiv (bar p) (norm2 p)
noncomputable def unit (p : Quat) : Quat := sdiv p (norm p)
/-- Components in the order of `operator[]`, quaternion.cpp:60-72. -/
def comp (p : Quat) : Fin 4 → ℝ := ![p.s, p.v.x, p.v.y, p.v.z]
/-- `toMatrix`, quaternion.cpp:74-93. -/
def toMatrix (p : Quat) : Matrix (Fin 4) (Fin 4) ℝ :=
  !![p.s, -p.v.x, -p.v.y, -p.v.z; p.v.x, p.s, -p.v.z, p.v.y; p.v.y, p.v.z, p.s, -p.v.x; p.v.z, -p.v.y, p.v.x, p.s]
/-- `slerp`, quaternion.cpp:254-269. -/
noncomputable def slerp (q0 q1 : Quat) (t : ℝ) : Quat :=
  let m0 := norm q0
  let m1 := norm q1
  let m := (1 - t) * m0 + t * m1
  let p0 := sdiv q0 m0
  let p1 := sdiv q1 m1
  let theta := Real.arccos (mul (bar p0) p1).s
  let p := sdiv (add (smul p0 (Real.sin ((1 - t) * theta))) (smul p1 (Real.sin (t * theta)))) (Real.sin theta)
  smul p m

end Quat
end GC
