import Verif.Nav
import Verif.Vec

/-! # SurfacePoint and barycentric coordinate helpers

Parameters and coordinates are real numbers; the interpolated data live in any real vector space. Meshes are
implicit-twin meshes (`Verif.Mesh`). -/

namespace GC

/-- `Vector3::operator[]`, vector3.h:36-37. -/
def V3.get (v : V3) (i : ℕ) : ℝ := if i = 0 then v.x else if i = 1 then v.y else v.z

/-- Assignment through `Vector3::operator[]`. -/
def V3.set (v : V3) (i : ℕ) (a : ℝ) : V3 :=
  if i = 0 then { v with x := a } else if i = 1 then { v with y := a } else { v with z := a }

/-- `SurfacePoint`, surface_point.h:18-46. -/
inductive SPoint where
  | vertex (v : ℕ)
  | edge (e : ℕ) (t : ℝ)
  | face (f : ℕ) (c : V3)

namespace SPoint
variable (m : Mesh)

/-- `SurfacePoint(Halfedge, double)`, surface_point.ipp:11-12. -/
noncomputable def ofHalfedge (he : ℕ) (t : ℝ) : SPoint :=
  .edge (Mesh.heEdge he) (if he = Mesh.eHalfedge (Mesh.heEdge he) then t else 1 - t)

/-- `inSomeFace`, surface_point.ipp:39-86. -/
noncomputable def inSomeFace : SPoint → SPoint
  | .vertex v =>
    let he := m.vHalfedge v
    let f := m.heFace he
    let target := m.fHalfedge f
    if he = target then .face f ⟨1, 0, 0⟩
    else if m.heNext he = target then .face f ⟨0, 0, 1⟩
    else .face f ⟨0, 1, 0⟩
  | .edge e t =>
    let he := Mesh.eHalfedge e
    let f := m.heFace he
    let target := m.fHalfedge f
    if he = target then .face f ⟨1 - t, t, 0⟩
    else if m.heNext he = target then .face f ⟨t, 0, 1 - t⟩
    else .face f ⟨0, 1 - t, t⟩
  | .face f c => .face f c

/-- The body of the inner loop of `inFace`, surface_point.ipp:119-126; `bary[i]` with `i ≥ 3` is out of range. -/
noncomputable def onSide (f i : ℕ) (t : ℝ) : Res SPoint :=
  if i < 3 then .ok (.face f (((⟨0, 0, 0⟩ : V3).set i (1 - t)).set ((i + 1) % 3) t)) else .error .ub

/-- `inFace`, surface_point.ipp:88-148. The loop over `edge.adjacentHalfedges()` is written out: the two
halfedges of the edge. -/
noncomputable def inFace (p : SPoint) (f : ℕ) : Res SPoint :=
  match p with
  | .vertex v =>
    let he := m.fHalfedge f
    if m.heVertex he = v then .ok (.face f ⟨1, 0, 0⟩)
    else if m.heVertex (m.heNext he) = v then .ok (.face f ⟨0, 1, 0⟩)
    else if m.heVertex (m.heNext (m.heNext he)) = v then .ok (.face f ⟨0, 0, 1⟩)
    else .error .throw
  | .edge e t =>
    match m.navFaceHalfedges f with
    | .error x => .error x
    | .ok l => match l.idxOf? (Mesh.eHalfedge e) with
      | some i => onSide f i t
      | none => match l.idxOf? (twin (Mesh.eHalfedge e)) with
        | some i => onSide f i (1 - t)
        | none => .error .throw
  | .face g c => if g = f then .ok (.face g c) else .error .throw

/-- `inEdge`, surface_point.ipp:150-170. -/
noncomputable def inEdge (p : SPoint) (e : ℕ) : Res SPoint :=
  match p with
  | .vertex v =>
    if v = m.heVertex (Mesh.eHalfedge e) then .ok (.edge e 1)
    else if v = m.tip (Mesh.eHalfedge e) then .ok (.edge e 0)
    else .error .throw
  | .edge e' t => if e' = e then .ok (.edge e' t) else .error .throw
  | .face _ _ => .error .throw

open Classical in
/-- `nearestVertex`, surface_point.ipp:172-198. -/
noncomputable def nearestVertex : SPoint → ℕ
  | .vertex v => v
  | .edge e t => if t < 1 / 2 then m.heVertex (Mesh.eHalfedge e) else m.heVertex (twin (Mesh.eHalfedge e))
  | .face f c =>
    if c.y ≤ c.x ∧ c.z ≤ c.x then m.heVertex (m.fHalfedge f)
    else if c.x ≤ c.y ∧ c.z ≤ c.y then m.heVertex (m.heNext (m.fHalfedge f))
    else m.heVertex (m.heNext (m.heNext (m.fHalfedge f)))

/-- `interpolate`, surface_point.ipp:200-226. -/
noncomputable def interpolate {T : Type} [AddCommGroup T] [Module ℝ T] (data : ℕ → T) : SPoint → T
  | .vertex v => data v
  | .edge e t => (1 - t) • data (m.heVertex (Mesh.eHalfedge e)) + t • data (m.heVertex (twin (Mesh.eHalfedge e)))
  | .face f c => c.x • data (m.heVertex (m.fHalfedge f)) + c.y • data (m.heVertex (m.heNext (m.fHalfedge f))) +
      c.z • data (m.heVertex (m.heNext (m.heNext (m.fHalfedge f))))

end SPoint

/-! ### barycentric_coordinate_helpers.ipp -/

namespace Bary

/-- `displacementLength2`, barycentric_coordinate_helpers.ipp:7-15. -/
noncomputable def displacementLength2 (d L : V3) : ℝ :=
  0 - L.get 0 * L.get 0 * d.get 1 * d.get 2 - L.get 1 * L.get 1 * d.get 2 * d.get 0 - L.get 2 * L.get 2 * d.get 0 * d.get 1

/-- `displacementLength`, barycentric_coordinate_helpers.ipp:18-21. -/
noncomputable def displacementLength (d L : V3) : ℝ := Real.sqrt (max (displacementLength2 d L) 0)

/-- `barycentricDisplacementToCartesian`, barycentric_coordinate_helpers.ipp:23-26. -/
def toCartesian (c0 c1 c2 : V2) (d : V3) : V2 := V2.add (V2.add (c0.smul d.x) (c1.smul d.y)) (c2.smul d.z)

open Classical in
/-- `normalizeBarycentric`, barycentric_coordinate_helpers.ipp:49-55. -/
noncomputable def normalize (b : V3) : V3 :=
  let s := b.x + b.y + b.z
  if s = 0 then ⟨1 / 3, 1 / 3, 1 / 3⟩ else b.sdiv s

/-- `normalizeBarycentricDisplacement`, barycentric_coordinate_helpers.ipp:57-60. -/
noncomputable def normalizeDisplacement (b : V3) : V3 :=
  let s := b.x + b.y + b.z
  b.sub ((⟨1, 1, 1⟩ : V3).smul (s / 3))

/-- `projectInsideTriangle`, barycentric_coordinate_helpers.ipp:63-68. -/
noncomputable def projectInside (b : V3) : V3 := normalize ⟨max b.x 0, max b.y 0, max b.z 0⟩

/-- `halfedgeIndexInTriangle`, barycentric_coordinate_helpers.ipp:73-83. -/
def halfedgeIndex (m : Mesh) (he : ℕ) : Res ℕ :=
  let f := m.heFace he
  if m.fHalfedge f = he then .ok 0
  else if m.heNext (m.fHalfedge f) = he then .ok 1
  else if m.heNext (m.heNext (m.fHalfedge f)) = he then .ok 2
  else .error .throw

/-- `permuteBarycentricToCanonical`, barycentric_coordinate_helpers.ipp:88-95. -/
noncomputable def toCanonical (m : Mesh) (he : ℕ) (b : V3) : Res V3 :=
  match halfedgeIndex m he with
  | .error e => .error e
  | .ok k => .ok ((((⟨0, 0, 0⟩ : V3).set ((0 + k) % 3) (b.get 0)).set ((1 + k) % 3) (b.get 1)).set ((2 + k) % 3) (b.get 2))

/-- `permuteBarycentricFromCanonical`, barycentric_coordinate_helpers.ipp:97-104. -/
noncomputable def fromCanonical (m : Mesh) (he : ℕ) (b : V3) : Res V3 :=
  match halfedgeIndex m he with
  | .error e => .error e
  | .ok k => .ok ((((⟨0, 0, 0⟩ : V3).set 0 (b.get ((0 + k) % 3))).set 1 (b.get ((1 + k) % 3))).set 2 (b.get ((2 + k) % 3)))

end Bary

/-! ### Triangles of a valid mesh -/

namespace Mesh
variable {m : Mesh}

theorem Valid.tri_distinct (hv : m.Valid) {f : ℕ} (hf : m.fLive f) (ht : m.fIsTriangle f) :
    m.heNext (m.fHalfedge f) ≠ m.fHalfedge f ∧ m.heNext (m.heNext (m.fHalfedge f)) ≠ m.fHalfedge f ∧
      m.heNext (m.heNext (m.fHalfedge f)) ≠ m.heNext (m.fHalfedge f) := by
  obtain ⟨hl, -⟩ := hv.f_he f hf
  have d := hv.deg_two _ hl
  refine ⟨d, ?_, hv.deg_two _ (hv.next_live _ hl)⟩
  intro h
  unfold fIsTriangle at ht
  rw [h] at ht
  exact d ht.symm

theorem Valid.tri_cases (hv : m.Valid) {f h : ℕ} (hf : m.fLive f) (ht : m.fIsTriangle f) (hh : m.heLive h) (hhf : m.heFace h = f) :
    h = m.fHalfedge f ∨ h = m.heNext (m.fHalfedge f) ∨ h = m.heNext (m.heNext (m.fHalfedge f)) := by
  obtain ⟨hl, hlf⟩ := hv.f_he f hf
  obtain ⟨k, hk⟩ := (hv.face_iff _ _ hl hh).1 (by rw [hlf, hhf])
  have key : ∀ k, m.heNext^[k] (m.fHalfedge f) = m.fHalfedge f ∨ m.heNext^[k] (m.fHalfedge f) = m.heNext (m.fHalfedge f) ∨
      m.heNext^[k] (m.fHalfedge f) = m.heNext (m.heNext (m.fHalfedge f)) := by
    intro k
    induction k with
    | zero => left; rfl
    | succ k ih =>
      rw [Function.iterate_succ_apply']
      rcases ih with h | h | h <;> rw [h]
      · right; left; rfl
      · right; right; rfl
      · left; exact ht.symm
  have := key k
  rwa [hk] at this

theorem Valid.tri_list (hv : m.Valid) {f : ℕ} (hf : m.fLive f) (ht : m.fIsTriangle f) :
    m.navFaceHalfedges f = .ok [m.fHalfedge f, m.heNext (m.fHalfedge f), m.heNext (m.heNext (m.fHalfedge f))] := by
  obtain ⟨hl, -⟩ := hv.f_he f hf
  obtain ⟨d1, d2, -⟩ := hv.tri_distinct hf ht
  unfold navFaceHalfedges
  have h0 := hl.1
  have h1 := hv.he_fill
  rw [navList_eq (k := 2) ht.symm (by
    intro j hj
    have : j = 0 ∨ j = 1 := by omega
    rcases this with rfl | rfl
    · exact d1
    · exact d2) (by omega)]
  rfl

theorem Valid.tri_of (hv : m.Valid) {f : ℕ} (hf : m.fLive f) (ht : m.fIsTriangle f) :
    m.heLive (m.fHalfedge f) ∧ m.heLive (m.heNext (m.fHalfedge f)) ∧ m.heLive (m.heNext (m.heNext (m.fHalfedge f))) ∧
    m.heFace (m.fHalfedge f) = f ∧ m.heFace (m.heNext (m.fHalfedge f)) = f ∧ m.heFace (m.heNext (m.heNext (m.fHalfedge f))) = f := by
  obtain ⟨hl, hlf⟩ := hv.f_he f hf
  have h1 := hv.next_live _ hl
  have h2 := hv.next_live _ h1
  have e1 := hv.face_next hl
  have e2 := hv.face_next h1
  exact ⟨hl, h1, h2, hlf, e1.trans hlf, e2.trans (e1.trans hlf)⟩

end Mesh
end GC
