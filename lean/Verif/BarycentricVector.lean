import Verif.SurfacePoint

/-! # BarycentricVector

Coordinates and lengths are real numbers. `Face()` and `Edge()` (no shared element) are `none`. -/

namespace GC

/-- A loop that returns the first element with the property `p`. -/
def firstM (p : ℕ → Res Bool) : List ℕ → Res (Option ℕ)
  | [] => .ok none
  | a :: l => match p a with
    | .error e => .error e
    | .ok true => .ok (some a)
    | .ok false => firstM p l

namespace Mesh
variable (m : Mesh)

/-- Loop over `f.adjacentEdges()` looking for `e` (halfedge_element_types.ipp:428-430, 455-457). -/
def faceHasEdge (f e : ℕ) : Res Bool := (m.navFaceHalfedges f).map (fun l => (l.map heEdge).contains e)

/-- Loop over `f.adjacentVertices()` looking for `v`. -/
def faceHasVertex (f v : ℕ) : Res Bool := (m.navFaceVertices f).map (fun l => l.contains v)

/-- `Edge::adjacentFaces`, halfedge_element_types.ipp:365-367, 377-379. -/
def navEdgeFaces (e : ℕ) : Res (List ℕ) := (m.navEdgeInterior e).map (List.map m.heFace)

/-- `Edge::adjacentVertices`, halfedge_element_types.ipp:382-385. -/
def edgeVertices (e : ℕ) : List ℕ := [m.heVertex (eHalfedge e), m.tip (eHalfedge e)]

end Mesh

namespace SPoint
variable (m : Mesh)

/-- `checkAdjacent(Face, point)`, surface_point.cpp:29-35, 51-62, 97-109. -/
def faceAdjacent (f : ℕ) : SPoint → Res Bool
  | .vertex v => (m.navVertexFaces v).map (fun l => l.contains f)
  | .edge e _ => m.faceHasEdge f e
  | .face g _ => .ok (f == g)

/-- `sharedFace`, surface_point.ipp:278-302. -/
def sharedFace (pA pB : SPoint) : Res (Option ℕ) :=
  match pA with
  | .vertex v => match m.navVertexFaces v with
    | .error x => .error x
    | .ok l => firstM (fun f => faceAdjacent m f pB) l
  | .edge e _ => match m.navEdgeFaces e with
    | .error x => .error x
    | .ok l => firstM (fun f => faceAdjacent m f pB) l
  | .face f _ => firstM (fun f => faceAdjacent m f pB) [f]

/-- `sharedEdge`, surface_point.ipp:304-342. -/
def sharedEdge (pA pB : SPoint) : Res (Option ℕ) :=
  match pA, pB with
  | .vertex v, .vertex w => match m.navOutgoing v with
    | .error x => .error x
    | .ok l => .ok ((l.find? (fun he => m.tip he == w)).map Mesh.heEdge)
  | .vertex v, .edge e _ => match m.navVertexEdges v with
    | .error x => .error x
    | .ok l => .ok (l.find? (fun e' => e' == e))
  | .edge e _, .vertex v => match m.navVertexEdges v with
    | .error x => .error x
    | .ok l => .ok (l.find? (fun e' => e' == e))
  | .edge e _, .edge e' _ => .ok (if e = e' then some e else none)
  | _, _ => .ok none

end SPoint

/-- `BarycentricVector`, barycentric_vector.h. -/
inductive BVec where
  | vertex (v : ℕ)
  | edge (e : ℕ) (c : V2)
  | face (f : ℕ) (c : V3)

namespace BVec
variable (m : Mesh)

/-- The last part of `BarycentricVector(SurfacePoint, SurfacePoint)`, barycentric_vector.ipp:36-44. -/
noncomputable def betweenInFace (pA pB : SPoint) : Res BVec :=
  match SPoint.sharedFace m pA pB with
  | .error x => .error x
  | .ok none => .error .throw
  | .ok (some f) =>
    match pA.inFace m f, pB.inFace m f with
    | .ok (.face _ a), .ok (.face _ b) => .ok (.face f (b.sub a))
    | .error x, _ => .error x
    | _, .error x => .error x
    | _, _ => .error .ub

/-- `BarycentricVector(SurfacePoint, SurfacePoint)`, barycentric_vector.ipp:15-45. `tEdge` of the result of `inEdge` is read
directly, as is `faceCoords` of the result of `inFace`. -/
noncomputable def between (pA pB : SPoint) : Res BVec :=
  let same : Option ℕ := match pA, pB with
    | .vertex v, .vertex w => if v = w then some v else none
    | _, _ => none
  match same with
  | some v => .ok (.vertex v)
  | none =>
    match SPoint.sharedEdge m pA pB with
    | .error x => .error x
    | .ok (some e) =>
      match pA.inEdge m e, pB.inEdge m e with
      | .ok (.edge _ a), .ok (.edge _ b) => .ok (.edge e ⟨b - a, a - b⟩)
      | .error x, _ => .error x
      | _, .error x => .error x
      | _, _ => .error .ub
    | .ok none => betweenInFace m pA pB

/-- The loop body and the writes of `BarycentricVector(Halfedge, Face)`, barycentric_vector.ipp:50-61, for the index `eIdx` at which
the loop ends. If no halfedge of the face belongs to the edge, that is the degree of the face, and `faceCoords[eIdx]` is out of
range for triangles. -/
noncomputable def sideVector (l : List ℕ) (he_ f eIdx : ℕ) : Res BVec :=
  if 3 ≤ eIdx then .error .ub
  else
    let sign : ℝ := match l[eIdx]? with
      | none => 0
      | some he => if m.heVertex he = m.heVertex he_ ∧ m.tip he = m.tip he_ then 1 else -1
    .ok (.face f ((((⟨0, 0, 0⟩ : V3).set ((eIdx + 1) % 3) 1).set eIdx (-1)).smul sign))

/-- `BarycentricVector(Halfedge, Face)`, barycentric_vector.ipp:47-62. -/
noncomputable def ofHalfedge (he_ f : ℕ) : Res BVec :=
  match m.navFaceHalfedges f with
  | .error x => .error x
  | .ok l => sideVector m l he_ f (l.findIdx (fun he => Mesh.heEdge he == Mesh.heEdge he_))

/-- `inSomeFace`, barycentric_vector.ipp:66-96. -/
noncomputable def inSomeFace : BVec → BVec
  | .face f c => .face f c
  | .edge e c =>
    let targetHe := Mesh.eHalfedge e
    let f := m.heFace targetHe
    let he := m.fHalfedge f
    if targetHe = he then .face f ⟨c.x, c.y, 0⟩
    else if targetHe = m.heNext he then .face f ⟨0, c.x, c.y⟩
    else .face f ⟨c.y, 0, c.x⟩
  | .vertex v => .face (m.heFace (m.vHalfedge v)) ⟨0, 0, 0⟩

/-- `Halfedge::orientation()` with implicit twins, surface_mesh.ipp:57: even halfedges. -/
def orientation (he : ℕ) : Prop := he % 2 = 0

instance (he : ℕ) : Decidable (orientation he) := by unfold orientation; infer_instance

/-- `inFace`, barycentric_vector.ipp:98-135. -/
noncomputable def inFace (u : BVec) (f : ℕ) : Res BVec :=
  match u with
  | .face g c => if g = f then .ok (.face g c) else .error .throw
  | .edge e c =>
    let h0 := m.fHalfedge f
    let h1 := m.heNext h0
    let h2 := m.heNext h1
    if e = Mesh.heEdge h0 then .ok (.face f (if orientation h0 then ⟨c.x, c.y, 0⟩ else ⟨c.y, c.x, 0⟩))
    else if e = Mesh.heEdge h1 then .ok (.face f (if orientation h1 then ⟨0, c.x, c.y⟩ else ⟨0, c.y, c.x⟩))
    else .ok (.face f (if orientation h2 then ⟨c.y, 0, c.x⟩ else ⟨c.x, 0, c.y⟩))
  | .vertex v => match m.faceHasVertex f v with
    | .error x => .error x
    | .ok true => .ok (.face f ⟨0, 0, 0⟩)
    | .ok false => .error .throw

/-- `inEdge`, barycentric_vector.ipp:137-157. -/
noncomputable def inEdge (u : BVec) (e : ℕ) : Res BVec :=
  match u with
  | .face _ _ => .error .throw
  | .edge e' c => if e' = e then .ok (.edge e' c) else .error .throw
  | .vertex v => if v ∈ m.edgeVertices e then .ok (.edge e ⟨0, 0⟩) else .error .throw

/-- `normalizedDisplacement`, barycentric_vector.ipp:197-209. -/
noncomputable def normalized : BVec → BVec
  | .face f c => .face f (c.sub ((⟨1, 1, 1⟩ : V3).smul ((c.x + c.y + c.z) / 3)))
  | .edge e c => .edge e (c.sub ((⟨1, 1⟩ : V2).smul ((c.x + c.y) / 2)))
  | .vertex v => .vertex v

/-- `sharedFace`, barycentric_vector.ipp:535-607. -/
def sharedFace (u w : BVec) : Res (Option ℕ) :=
  match u, w with
  | .face f _, .face g _ => .ok (if f = g then some f else none)
  | .face f _, .edge e _ => firstM (fun f => m.faceHasEdge f e) [f]
  | .face f _, .vertex v => firstM (fun f => m.faceHasVertex f v) [f]
  | .edge e _, .face f _ => firstM (fun f => m.faceHasEdge f e) [f]
  | .edge e _, .edge e' _ => match m.navEdgeFaces e with
    | .error x => .error x
    | .ok l => firstM (fun f => m.faceHasEdge f e') l
  | .edge e _, .vertex v => match m.navEdgeFaces e with
    | .error x => .error x
    | .ok l => firstM (fun f => m.faceHasVertex f v) l
  | .vertex v, .face f _ => firstM (fun f => m.faceHasVertex f v) [f]
  | .vertex v, .edge e _ => match m.navEdgeFaces e with
    | .error x => .error x
    | .ok l => firstM (fun f => m.faceHasVertex f v) l
  | .vertex v, .vertex w => match m.navVertexFaces v with
    | .error x => .error x
    | .ok l => firstM (fun f => m.faceHasVertex f w) l

/-- `sharedEdge`, barycentric_vector.ipp:609-636. -/
def sharedEdge (u w : BVec) : Res (Option ℕ) :=
  match u, w with
  | .edge e _, .edge e' _ => .ok (if e = e' then some e else none)
  | .edge e _, .vertex v => .ok (if v ∈ m.edgeVertices e then some e else none)
  | .vertex v, .edge e _ => .ok (if v ∈ m.edgeVertices e then some e else none)
  | .vertex v, .vertex w => match m.navOutgoing v with
    | .error x => .error x
    | .ok l => .ok ((l.find? (fun he => m.tip he == w)).map Mesh.heEdge)
  | _, _ => .ok none

/-- The first test of both operators, barycentric_vector.ipp:271-273, 296-298. -/
def sameVertex (u w : BVec) : Bool :=
  match u, w with
  | .vertex v, .vertex v' => v == v'
  | _, _ => false

/-- The common body of `operator+` and `operator-`, barycentric_vector.ipp:269-317: `f2`, `f3` combine the coordinates. -/
noncomputable def combine (f2 : V2 → V2 → V2) (f3 : V3 → V3 → V3) (u w : BVec) : Res BVec :=
  if sameVertex u w then .ok u
  else match sharedEdge m u w with
    | .error x => .error x
    | .ok (some e) => match u.inEdge m e, w.inEdge m e with
      | .ok (.edge _ a), .ok (.edge _ b) => .ok (.edge e (f2 a b))
      | .error x, _ => .error x
      | _, .error x => .error x
      | _, _ => .error .ub
    | .ok none => match sharedFace m u w with
      | .error x => .error x
      | .ok none => .error .throw
      | .ok (some f) => match u.inFace m f, w.inFace m f with
        | .ok (.face _ a), .ok (.face _ b) => .ok (.face f (f3 a b))
        | .error x, _ => .error x
        | _, .error x => .error x
        | _, _ => .error .ub

/-- `operator+`, `operator-`. -/
noncomputable def add (u w : BVec) : Res BVec := combine m V2.add V3.add u w
noncomputable def sub (u w : BVec) : Res BVec := combine m V2.sub V3.sub u w

/-- `operator*`, `operator/` and unary `operator-`, barycentric_vector.ipp:319-359. -/
def smul (s : ℝ) : BVec → BVec
  | .face f c => .face f (c.smul s)
  | .edge e c => .edge e (c.smul s)
  | .vertex v => .vertex v
noncomputable def sdiv (s : ℝ) : BVec → BVec
  | .face f c => .face f (c.sdiv s)
  | .edge e c => .edge e (c.sdiv s)
  | .vertex v => .vertex v
def neg : BVec → BVec
  | .face f c => .face f c.neg
  | .edge e c => .edge e c.neg
  | .vertex v => .vertex v

/-- `norm2`, barycentric_vector.ipp:506-533. -/
noncomputable def norm2 (len : ℕ → ℝ) : BVec → ℝ
  | .face f c =>
    let lij := len (Mesh.heEdge (m.fHalfedge f))
    let ljk := len (Mesh.heEdge (m.heNext (m.fHalfedge f)))
    let lki := len (Mesh.heEdge (m.heNext (m.heNext (m.fHalfedge f))));
    -((lij * lij * c.x * c.y) + (ljk * ljk * c.y * c.z) + (lki * lki * c.z * c.x))
  | .edge e c => -(len e) * len e * c.x * c.y
  | .vertex _ => 0

/-- `norm`, barycentric_vector.ipp:478-504. -/
noncomputable def norm (len : ℕ → ℝ) : BVec → ℝ
  | .face f c =>
    let lij := len (Mesh.heEdge (m.fHalfedge f))
    let ljk := len (Mesh.heEdge (m.heNext (m.fHalfedge f)))
    let lki := len (Mesh.heEdge (m.heNext (m.heNext (m.fHalfedge f))))
    Real.sqrt (-((lij * lij * c.x * c.y) + (ljk * ljk * c.y * c.z) + (lki * lki * c.z * c.x)))
  | .edge e c => Real.sqrt (-(len e) * len e * c.x * c.y)
  | .vertex _ => 0

/-- `dot`, barycentric_vector.ipp:645-673. -/
noncomputable def dot (len : ℕ → ℝ) (u v : BVec) : Res ℝ :=
  match sharedFace m u v with
  | .error x => .error x
  | .ok none => .error .throw
  | .ok (some f) => match u.inFace m f, v.inFace m f with
    | .ok (.face _ u), .ok (.face _ v) =>
      let lij := len (Mesh.heEdge (m.fHalfedge f))
      let ljk := len (Mesh.heEdge (m.heNext (m.fHalfedge f)))
      let lki := len (Mesh.heEdge (m.heNext (m.heNext (m.fHalfedge f))))
      let term1 := (u.y * v.x + u.x * v.y) * lij * lij
      let term2 := (u.z * v.y + u.y * v.z) * ljk * ljk
      let term3 := (u.z * v.x + u.x * v.z) * lki * lki
      .ok (-0.5 * (term1 + term2 + term3))
    | .error x, _ => .error x
    | _, .error x => .error x
    | _, _ => .error .ub

/-- `faceVectorRotate90`, barycentric_vector.cpp:7-28, as a function of the three lengths. -/
noncomputable def rot90Coords (lij ljk lki : ℝ) (u : V3) : V3 :=
  let ai := lij * lij - ljk * ljk + lki * lki
  let aj := ljk * ljk - lki * lki + lij * lij
  let ak := lki * lki - lij * lij + ljk * ljk
  let s := 0.5 * (lij + ljk + lki)
  let A := Real.sqrt (s * (s - lij) * (s - ljk) * (s - lki))
  V3.sdiv ⟨ak * u.z - aj * u.y, ai * u.x - ak * u.z, aj * u.y - ai * u.x⟩ (4 * A)

/-- `faceVectorRotate`, barycentric_vector.cpp:30-68, as a function of the three lengths. -/
noncomputable def rotCoords (lij ljk lki : ℝ) (u : V3) (angle : ℝ) : V3 :=
  let lij2 := lij * lij
  let ljk2 := ljk * ljk
  let lki2 := lki * lki
  let A2 := -(lij - ljk - lki) * (lij + ljk - lki) * (lij - ljk + lki) * (lij + ljk + lki) / 16
  let bA := 2 * Real.sqrt A2
  let qA2 := 4 * A2
  let ai2 := 0.5 * (lij2 - ljk2 + lki2)
  let aj2 := 0.5 * (ljk2 - lki2 + lij2)
  let ak2 := 0.5 * (lki2 - lij2 + ljk2)
  let cosTheta := Real.cos angle
  let sinTheta := Real.sin angle
  let oneMinusCos := 1 - cosTheta
  let aj2ak2 := aj2 * ak2
  let ai2ak2 := ai2 * ak2
  let ai2aj2 := ai2 * aj2
  let xi := (qA2 * cosTheta + oneMinusCos * aj2ak2) * u.x
  let xj := (oneMinusCos * aj2ak2 - bA * sinTheta * aj2) * u.y
  let xk := (oneMinusCos * aj2ak2 + bA * sinTheta * ak2) * u.z
  let yi := (oneMinusCos * ai2ak2 + bA * sinTheta * ai2) * u.x
  let yj := (qA2 * cosTheta + oneMinusCos * ai2ak2) * u.y
  let yk := (oneMinusCos * ai2ak2 - bA * sinTheta * ak2) * u.z
  let zi := (oneMinusCos * ai2aj2 - bA * sinTheta * ai2) * u.x
  let zj := (oneMinusCos * ai2aj2 + bA * sinTheta * aj2) * u.y
  let zk := (qA2 * cosTheta + oneMinusCos * ai2aj2) * u.z
  V3.sdiv ⟨xi + xj + xk, yi + yj + yk, zi + zj + zk⟩ qA2

/-- The lengths read by both functions, barycentric_vector.cpp:15-17, 37-39. -/
noncomputable def rotFace (len : ℕ → ℝ) (f : ℕ) (c : V3) (r : ℝ → ℝ → ℝ → V3 → V3) : BVec :=
  .face f (r (len (Mesh.heEdge (m.fHalfedge f))) (len (Mesh.heEdge (m.heNext (m.fHalfedge f))))
    (len (Mesh.heEdge (m.heNext (m.heNext (m.fHalfedge f))))) c)

open Classical in
/-- `rotate90`, barycentric_vector.ipp:211-233. -/
noncomputable def rotate90 (len : ℕ → ℝ) : BVec → Res BVec
  | .face f c => .ok (rotFace m len f c rot90Coords)
  | .edge e c =>
    let he := if c.x < 0 then Mesh.eHalfedge e else twin (Mesh.eHalfedge e)
    let he := if m.heIsInterior he then he else twin he
    match (BVec.edge e c).inFace m (m.heFace he) with
    | .ok (.face f c') => .ok (rotFace m len f c' rot90Coords)
    | .error x => .error x
    | _ => .error .ub
  | .vertex v => .ok (.vertex v)

/-- `regularizeAngle`, utilities.h:90. -/
noncomputable def regularizeAngle (theta : ℝ) : ℝ := theta - 2 * Real.pi * ⌊theta / (2 * Real.pi)⌋

open Classical in
/-- `rotate`, barycentric_vector.ipp:235-265. -/
noncomputable def rotate (len : ℕ → ℝ) (angle : ℝ) : BVec → Res BVec
  | .face f c => .ok (rotFace m len f c (fun a b d u => rotCoords a b d u angle))
  | .edge e c =>
    let theta := regularizeAngle angle
    if theta = Real.pi ∨ theta = -Real.pi then .ok (.edge e c.neg)
    else
      let he := if c.x < 0 then Mesh.eHalfedge e else twin (Mesh.eHalfedge e)
      let he := if ¬ m.heIsInterior he ∧ theta < Real.pi then Mesh.eHalfedge e
        else if m.eIsBoundary e ∧ m.heIsInterior he ∧ theta > Real.pi then Mesh.eHalfedge e
        else if theta > Real.pi then twin he
        else he
      match (BVec.edge e c).inFace m (m.heFace he) with
      | .ok (.face f c') => .ok (rotFace m len f c' (fun a b d u => rotCoords a b d u angle))
      | .error x => .error x
      | _ => .error .ub
  | .vertex v => .ok (.vertex v)

end BVec
end GC
