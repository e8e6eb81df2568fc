import Verif.PolygonConnectionForm
import Verif.Props.Polygon
import Verif.Props.Connection

/-! # C87: the connection Laplacian of polygon meshes -/

namespace GC
open Matrix
open Classical Finset

/-- An oriented orthonormal basis of the plane with normal `n`. -/
structure IsBasis (t : V3 × V3) (n : V3) : Prop where
  xx : t.1.dot t.1 = 1
  yy : t.2.dot t.2 = 1
  xy : t.1.dot t.2 = 0
  n : t.1.cross t.2 = n

/-- The rotation that takes `a` to `b` and keeps what is normal to both. -/
structure IsTurn (Q : V3 → V3) (a b : V3) : Prop where
  add : ∀ u w, Q (u.add w) = (Q u).add (Q w)
  smul : ∀ u c, Q (u.smul c) = (Q u).smul c
  dot : ∀ u w, (Q u).dot (Q w) = u.dot w
  cross : ∀ u w, Q (u.cross w) = (Q u).cross (Q w)
  maps : Q a = b
  axis : ∀ u, u.dot a = 0 → u.dot b = 0 → Q u = u

/-- The tangent vector with coordinates `z`. -/
noncomputable def tangent (t : V3 × V3) (z : ℂ) : V3 := (t.1.smul z.re).add (t.2.smul z.im)

def ofEigen (u : Fin 3 → ℝ) : V3 := ⟨u 0, u 1, u 2⟩

theorem toEigen_ofEigen (u : Fin 3 → ℝ) : (ofEigen u).toEigen = u := by
  funext k; fin_cases k <;> rfl

theorem toEigen_inj {u w : V3} (h : u.toEigen = w.toEigen) : u = w := by
  have h0 := congrFun h 0; have h1 := congrFun h 1; have h2 := congrFun h 2
  exact V3.ext h0 h1 h2

namespace Mesh
variable {m : Mesh} {pos : ℕ → V3} {vs hs is es fs : List ℕ}

theorem _root_.GC.IsBasis.frame {t : V3 × V3} {n : V3} (h : IsBasis t n) : Poly.Frame t.1.toEigen t.2.toEigen n.toEigen :=
  ⟨by rw [toEigen_dot]; exact h.xx, by rw [toEigen_dot]; exact h.yy, by rw [toEigen_dot]; exact h.xy, by rw [← toEigen_cross, h.n]⟩

theorem turn_isTurn {a b : V3} (ha : a.dot a = 1) (hb : b.dot b = 1) (hc : 1e-5 ≤ |a.dot b + 1|) :
    IsTurn (fun w => ofEigen (Poly.turn a.toEigen b.toEigen w.toEigen)) a b := by
  rw [← toEigen_dot] at ha hb hc
  have hc' : ¬ |a.toEigen ⬝ᵥ b.toEigen + 1| < 1e-5 := not_lt.2 hc
  have h1 : 1 + a.toEigen ⬝ᵥ b.toEigen ≠ 0 := by
    intro h; apply hc'; rw [add_comm, h]; norm_num
  have al := fun w => (Poly.align_mulVec ha hb hc' w).symm
  refine ⟨fun u w => ?_, fun u c => ?_, fun u w => ?_, fun u w => ?_, ?_, fun u h0 h2 => ?_⟩ <;> try apply toEigen_inj
  · simp only [toEigen_ofEigen, toEigen_add]
    rw [al, al, al, mulVec_add]
  · simp only [toEigen_ofEigen, toEigen_smul]
    rw [al, al, mulVec_smul]
  · rw [← toEigen_dot, toEigen_ofEigen, toEigen_ofEigen, Poly.turn_dot ha hb h1, toEigen_dot]
  · simp only [toEigen_ofEigen, toEigen_cross]
    rw [Poly.turn_cross ha hb h1]
  · rw [toEigen_ofEigen, Poly.turn_self ha]
  · rw [toEigen_ofEigen, Poly.turn_axis ha hb h1 (by rw [toEigen_dot]; exact h0) (by rw [toEigen_dot]; exact h2)]

/-- **C87, Hermitian.** Whatever the normals and bases, the matrix is made without error and is Hermitian. -/
theorem C87_hermitian (m : Mesh) (pos : ℕ → V3) (lam : ℝ) (hv : m.Valid) (nv : ℕ → V3) (tv tf : ℕ → V3 × V3) :
    ∃ M, m.connectionWith pos lam nv tv tf = .ok M ∧ ∀ i < m.nV, ∀ j < m.nV, M i j = starRingEnd ℂ (M j i) := by
  obtain ⟨vs, hs, is, es, fs, R⟩ := hv.ranges
  obtain ⟨F, hF⟩ := hv.faceLoops
  obtain ⟨A, a1, a2⟩ := faceAreasE_loops (pos := pos) hF R
  obtain ⟨N, n1, -⟩ := faceNormalsE_loops (pos := pos) hF R
  obtain ⟨M, m1, m2⟩ := connectionWith_form hv hF R a1 n1 lam nv tv tf
  refine ⟨M, m1, fun i hi j hj => ?_⟩
  rw [← pair_unit M hi hj, ← pair_unit M hj hi, m2, m2, map_sum]
  refine sum_congr rfl (fun f _ => ?_)
  rw [map_sum]
  refine sum_congr rfl (fun a _ => ?_)
  rw [map_sum]
  refine sum_congr rfl (fun b _ => ?_)
  have h5 : starRingEnd ℂ 0.5 = 0.5 := by
    rw [show (0.5 : ℂ) = ((0.5 : ℝ) : ℂ) by norm_num, Complex.conj_ofReal]
  simp only [map_add, map_mul, conj_delta, Complex.conj_conj, h5]
  ring

theorem corner_sum {L : ℕ → List ℕ} (F : m.FaceLoops L) {f : ℕ} (hf : f ∈ m.faces) {α : Type} [AddCommMonoid α] (G : ℕ → α) :
    ∑ i : _root_.Fin ((L f).map m.heVertex).length, G ((L f).get (i.cast (List.length_map _))) = ∑ h ∈ m.ints with m.heFace h = f, G h := by
  rw [← sum_of_nodup (F.nodup f hf) (S := m.ints.filter (fun h => m.heFace h = f)) (fun h => by rw [F.mem f hf, mem_filter])]
  conv_rhs => rw [← List.ofFn_get (L f)]
  rw [List.map_ofFn, List.sum_ofFn]
  exact Fintype.sum_equiv (finCongr (List.length_map _)) _ _ (fun i => rfl)

theorem sum_by_face (hv : m.Valid) {α : Type} [AddCommMonoid α] (G : ℕ → ℕ → α) :
    ∑ f ∈ m.faces, ∑ h ∈ m.ints with m.heFace h = f, G f h = ∑ h ∈ m.ints, G (m.heFace h) h := by
  rw [← sum_fiberwise_of_maps_to (fun h hh => int_face hv hh)]
  refine sum_congr rfl (fun f _ => sum_congr rfl (fun h hh => ?_))
  rw [(mem_filter.1 hh).2]

/-- The entry of a matrix of a face that belongs to two halfedges. -/
noncomputable def sideWeight {L : ℕ → List ℕ} (K : (f : ℕ) → Matrix (_root_.Fin ((L f).map m.heVertex).length) (_root_.Fin ((L f).map m.heVertex).length) ℝ) (h g : ℕ) : ℝ :=
  if q : (L (m.heFace h)).idxOf h < ((L (m.heFace h)).map m.heVertex).length ∧ (L (m.heFace h)).idxOf g < ((L (m.heFace h)).map m.heVertex).length then
    K (m.heFace h) ⟨_, q.1⟩ ⟨_, q.2⟩ else 0

theorem sideWeight_get {L : ℕ → List ℕ} (F : m.FaceLoops L) {f : ℕ} (hf : f ∈ m.faces)
    (K : (f : ℕ) → Matrix (_root_.Fin ((L f).map m.heVertex).length) (_root_.Fin ((L f).map m.heVertex).length) ℝ) (i j : _root_.Fin ((L f).map m.heVertex).length) :
    sideWeight K ((L f).get (i.cast (List.length_map _))) ((L f).get (j.cast (List.length_map _))) = K f i j := by
  have e : m.heFace ((L f).get (i.cast (List.length_map _))) = f := ((F.mem f hf _).1 (List.get_mem _ _)).2
  have k : ∀ i : _root_.Fin ((L f).map m.heVertex).length, (L f).idxOf ((L f).get (i.cast (List.length_map _))) = i.1 := by
    intro i
    have := (F.nodup f hf).idxOf_getElem i.1 (Nat.lt_of_lt_of_eq i.2 (List.length_map _))
    simpa using this
  have gen : ∀ f' h g, m.heFace h = f' → (i' j' : _root_.Fin ((L f').map m.heVertex).length) → (L f').idxOf h = i'.1 → (L f').idxOf g = j'.1 →
      sideWeight K h g = K f' i' j' := by
    intro f' h g e i' j' hi hj
    subst e
    unfold sideWeight
    rw [dif_pos ⟨by rw [hi]; exact i'.2, by rw [hj]; exact j'.2⟩]
    congr 1
    · exact Fin.ext hi
    · exact Fin.ext hj
  exact gen f _ _ e i j (k i) (k j)

/-- A form of the faces as a sum over pairs of halfedges of a face. -/
theorem form_sides {L : ℕ → List ℕ} (hv : m.Valid) (F : m.FaceLoops L)
    (K : (f : ℕ) → Matrix (_root_.Fin ((L f).map m.heVertex).length) (_root_.Fin ((L f).map m.heVertex).length) ℝ) (G : ℕ → ℕ → ℝ) :
    ∑ f ∈ m.faces, ∑ i, ∑ j, K f i j * G ((L f).get (i.cast (List.length_map _))) ((L f).get (j.cast (List.length_map _))) =
      ∑ h ∈ m.ints, ∑ g ∈ m.ints with m.heFace g = m.heFace h, sideWeight K h g * G h g := by
  rw [← sum_by_face hv (fun f h => ∑ g ∈ m.ints with m.heFace g = f, sideWeight K h g * G h g)]
  refine sum_congr rfl (fun f hf => ?_)
  rw [← corner_sum F hf]
  refine sum_congr rfl (fun i _ => ?_)
  rw [← corner_sum F hf]
  exact sum_congr rfl (fun j _ => by rw [sideWeight_get F hf])

theorem place_tangent (t : V3 × V3) (z : ℂ) : (tangent t z).toEigen = Poly.place t.1.toEigen t.2.toEigen z := by
  unfold tangent Poly.place
  rw [toEigen_add, toEigen_smul, toEigen_smul]

theorem place_dot {X Y N : _root_.Fin 3 → ℝ} (h : Poly.Frame X Y N) (z w : ℂ) : Poly.place X Y z ⬝ᵥ Poly.place X Y w = z.re * w.re + z.im * w.im := by
  have yx : Y ⬝ᵥ X = 0 := by rw [dotProduct_comm]; exact h.xy
  unfold Poly.place
  simp only [add_dotProduct, dotProduct_add, smul_dotProduct, dotProduct_smul, h.xx, h.yy, h.xy, yx, smul_eq_mul]
  ring

theorem place_inj {X Y N : _root_.Fin 3 → ℝ} (h : Poly.Frame X Y N) {z w : ℂ} (e : Poly.place X Y z = Poly.place X Y w) : z = w := by
  have e1 := place_dot h (z - w) (z - w)
  have e2 : Poly.place X Y (z - w) = 0 := by
    have : Poly.place X Y (z - w) = Poly.place X Y z - Poly.place X Y w := by
      unfold Poly.place
      simp only [Complex.sub_re, Complex.sub_im]
      module
    rw [this, e, sub_self]
  rw [e2, zero_dotProduct] at e1
  have a1 : (z - w).re = 0 := by nlinarith [mul_self_nonneg (z - w).re, mul_self_nonneg (z - w).im]
  have a2 : (z - w).im = 0 := by nlinarith [mul_self_nonneg (z - w).re, mul_self_nonneg (z - w).im]
  exact sub_eq_zero.1 (Complex.ext a1 a2)


/-- The entries of the matrix of a face, when its corners carry bases. -/
theorem face_entries {n : ℕ} (l : List ℕ) (f : ℕ) (lam : ℝ) {A : ℕ → ℝ} {N nv : ℕ → V3} {tv tf : ℕ → V3 × V3} (h2 : 2 ≤ l.length) (hf : IsBasis (tf f) (N f))
    (hw : ∀ i, IsBasis (tv (l.get i)) (nv (l.get i))) (ho : ∀ i, 1e-5 ≤ |(nv (l.get i)).dot (N f) + 1|) (i j : _root_.Fin l.length) :
    pairEntry (faceConnection pos lam A N nv tv tf l f) i j = Poly.laplacian (polyMatrix pos l) (A f) (N f).toEigen lam i j *
      (starRingEnd ℂ (Poly.spin (tf f).1.toEigen (tf f).2.toEigen (Poly.turn (nv (l.get i)).toEigen (N f).toEigen (tv (l.get i)).1.toEigen)) *
        Poly.spin (tf f).1.toEigen (tf f).2.toEigen (Poly.turn (nv (l.get j)).toEigen (N f).toEigen (tv (l.get j)).1.toEigen)) := by
  have c := fun i => (Poly.corner_spec hf.frame (hw i).frame (by rw [toEigen_dot]; exact not_lt.2 (ho i))).1
  unfold pairEntry faceConnection
  rw [Poly.connection_entry h2 hf.frame, Poly.connection_entry h2 hf.frame]
  simp only [c]
  apply Complex.ext <;> simp [Fin.sum_univ_two, Complex.mul_re, Complex.mul_im]
  left; ring

theorem laplacian_sym {n : ℕ} (p : Matrix (_root_.Fin n) (_root_.Fin 3) ℝ) (A : ℝ) (N : _root_.Fin 3 → ℝ) (lam : ℝ) (i j : _root_.Fin n) :
    Poly.laplacian p A N lam i j = Poly.laplacian p A N lam j i := by
  have := local_symm p A N lam (Pi.single i 1) (Pi.single j 1)
  simpa [Matrix.mulVec_single, single_dotProduct] using this

theorem laplacian_row {n : ℕ} (h2 : 2 ≤ n) (p : Matrix (_root_.Fin n) (_root_.Fin 3) ℝ) (A : ℝ) (N : _root_.Fin 3 → ℝ) (lam : ℝ) (i : _root_.Fin n) :
    ∑ j, Poly.laplacian p A N lam i j = 0 := by
  have := Poly.laplacian_form (p := p) (A := A) (N := N) lam (Pi.single i 1) (fun _ => 1)
  have z : Poly.derivative n *ᵥ (fun _ => (1 : ℝ)) = 0 := by
    funext i; rw [Poly.derivative_mulVec h2, sub_self]; rfl
  rw [z, mulVec_zero, dotProduct_zero, single_dotProduct, one_mul] at this
  simpa [mulVec, dotProduct] using this

/-- **C87, connection Laplacian.** On every mesh with faces of positive area, for oriented orthonormal bases of the planes normal to `nv` at the vertices and of the
faces, where no vertex normal is opposite to the normal of a face: there are numbers `K`, one for each pair of halfedges of a face, so that
`polygonLaplacian` has the form with these weights, and the connection Laplacian has the form with these weights of the tangent vectors turned into the planes
of the faces, by the rotations that take the vertex normals to the face normals. It is positive semidefinite, and its kernel consists of the parallel fields. -/
theorem C87_connection (m : Mesh) (pos : ℕ → V3) (lam : ℝ) (hv : m.Valid) (hl : 0 < lam) {A : ℕ → ℝ} {N : ℕ → V3} (hA : m.faceAreasE pos = .ok A)
    (hN : m.faceNormalsE pos = .ok N) (hp : ∀ f, m.fLive f → f < m.nFFill → 0 < A f) (nv : ℕ → V3) (tv tf : ℕ → V3 × V3)
    (ht : ∀ f, m.fLive f → f < m.nFFill → IsBasis (tf f) (N f))
    (hw : ∀ h, m.heLive h → ¬ m.ext h → IsBasis (tv (m.heVertex h)) (nv (m.heVertex h)))
    (ho : ∀ h, m.heLive h → ¬ m.ext h → 1e-5 ≤ |(nv (m.heVertex h)).dot (N (m.heFace h)) + 1|) :
    ∃ M P ind, ∃ Q : ℕ → V3 → V3, ∃ K : ℕ → ℕ → ℝ, m.connectionWith pos lam nv tv tf = .ok M ∧ m.polygonLaplacian pos lam = .ok P ∧ m.getVertexIndices = .ok ind ∧
      (∀ h, m.heLive h → ¬ m.ext h → IsTurn (Q h) (nv (m.heVertex h)) (N (m.heFace h))) ∧
      (∀ x y : ℕ → ℝ, ∑ i ∈ range m.nV, ∑ j ∈ range m.nV, x i * P i j * y j =
        ∑ h ∈ m.ints, ∑ g ∈ m.ints with m.heFace g = m.heFace h, K h g * (x (ind (m.heVertex h)) * y (ind (m.heVertex g)))) ∧
      (∀ z : ℕ → ℂ, ∑ i ∈ range m.nV, ∑ j ∈ range m.nV, starRingEnd ℂ (z i) * M i j * z j =
        ((∑ h ∈ m.ints, ∑ g ∈ m.ints with m.heFace g = m.heFace h, K h g * (Q h (tangent (tv (m.heVertex h)) (z (ind (m.heVertex h))))).dot
          (Q g (tangent (tv (m.heVertex g)) (z (ind (m.heVertex g))))) : ℝ) : ℂ)) ∧
      (∀ z : ℕ → ℂ, 0 ≤ (∑ i ∈ range m.nV, ∑ j ∈ range m.nV, starRingEnd ℂ (z i) * M i j * z j).re) ∧
      (∀ z : ℕ → ℂ, (∀ i < m.nV, ∑ j ∈ range m.nV, M i j * z j = 0) ↔ ∀ h, m.heLive h → ¬ m.ext h →
        Q h (tangent (tv (m.heVertex h)) (z (ind (m.heVertex h)))) =
          Q (m.heNext h) (tangent (tv (m.heVertex (m.heNext h))) (z (ind (m.heVertex (m.heNext h)))))) := by
  obtain ⟨vs, hs, is, es, fs, R⟩ := hv.ranges
  obtain ⟨F, hF⟩ := hv.faceLoops
  obtain ⟨A', a1, a2⟩ := faceAreasE_loops (pos := pos) hF R
  rw [hA] at a1
  injection a1 with a1
  subst a1
  obtain ⟨P, p1, p2⟩ := polygonLaplacian_form hv hF R hA hN lam
  obtain ⟨M, m1, m2⟩ := connectionWith_form hv hF R hA hN lam nv tv tf
  have hp : ∀ f ∈ m.faces, 0 < A f := fun f hf => hp f (mem_faces.1 hf).1 (mem_faces.1 hf).2
  have ht : ∀ f ∈ m.faces, IsBasis (tf f) (N f) := fun f hf => ht f (mem_faces.1 hf).1 (mem_faces.1 hf).2
  have two : ∀ f ∈ m.faces, 2 ≤ ((F f).map m.heVertex).length := fun f hf => two_sides hF hf (by
    have := hp f hf; rw [a2 f hf] at this; linarith)
  have mem : ∀ f ∈ m.faces, ∀ i : _root_.Fin ((F f).map m.heVertex).length, ((F f).get (i.cast (List.length_map _))) ∈ m.ints ∧
      m.heFace ((F f).get (i.cast (List.length_map _))) = f := fun f hf i => (hF.mem f hf _).1 (List.get_mem _ _)
  have vert : ∀ f ∈ m.faces, ∀ i : _root_.Fin ((F f).map m.heVertex).length, ((F f).map m.heVertex).get i = m.heVertex ((F f).get (i.cast (List.length_map _))) :=
    fun f hf i => (get_cyc hF hf i).2
  have hw' : ∀ f ∈ m.faces, ∀ i, IsBasis (tv (((F f).map m.heVertex).get i)) (nv (((F f).map m.heVertex).get i)) := by
    intro f hf i
    obtain ⟨q1, q2⟩ := mem f hf i
    rw [vert f hf]
    exact hw _ (mem_ints.1 q1).1 (mem_ints.1 q1).2
  have ho' : ∀ f ∈ m.faces, ∀ i, 1e-5 ≤ |(nv (((F f).map m.heVertex).get i)).dot (N f) + 1| := by
    intro f hf i
    obtain ⟨q1, q2⟩ := mem f hf i
    have := ho _ (mem_ints.1 q1).1 (mem_ints.1 q1).2
    rw [q2] at this
    rw [vert f hf]
    exact this
  set K := fun f => Poly.laplacian (polyMatrix pos ((F f).map m.heVertex)) (A f) (N f).toEigen lam with hK
  set r : (f : ℕ) → _root_.Fin ((F f).map m.heVertex).length → ℂ := fun f i => Poly.spin (tf f).1.toEigen (tf f).2.toEigen
    (Poly.turn (nv (((F f).map m.heVertex).get i)).toEigen (N f).toEigen (tv (((F f).map m.heVertex).get i)).1.toEigen) with hr
  set Q : ℕ → V3 → V3 := fun h w => ofEigen (Poly.turn (nv (m.heVertex h)).toEigen (N (m.heFace h)).toEigen w.toEigen) with hQ
  have sym : ∀ f i j, K f i j = K f j i := fun f i j => laplacian_sym _ _ _ _ _ _
  -- the form of the connection Laplacian
  have form : ∀ x y : ℕ → ℂ, ∑ i ∈ range m.nV, ∑ j ∈ range m.nV, x i * M i j * y j = ∑ f ∈ m.faces, ∑ i, ∑ j, (K f i j : ℂ) *
      ((x (number vs (((F f).map m.heVertex).get i)) * starRingEnd ℂ (r f i)) * (r f j * y (number vs (((F f).map m.heVertex).get j)))) := by
    intro x y
    rw [m2]
    refine sum_congr rfl (fun f hf => ?_)
    exact spun_form _ (K f) (sym f) (r f) (fun i j => face_entries (n := 0) _ f lam (two f hf) (ht f hf) (hw' f hf) (ho' f hf) i j)
      (fun i => x (number vs (((F f).map m.heVertex).get i))) (fun j => y (number vs (((F f).map m.heVertex).get j)))
  have quad : ∀ z : ℕ → ℂ, ∑ i ∈ range m.nV, ∑ j ∈ range m.nV, starRingEnd ℂ (z i) * M i j * z j = ((∑ f ∈ m.faces,
      ((fun i => (r f i * z (number vs (((F f).map m.heVertex).get i))).re) ⬝ᵥ (K f *ᵥ (fun i => (r f i * z (number vs (((F f).map m.heVertex).get i))).re)) +
        (fun i => (r f i * z (number vs (((F f).map m.heVertex).get i))).im) ⬝ᵥ (K f *ᵥ (fun i => (r f i * z (number vs (((F f).map m.heVertex).get i))).im))) : ℝ) : ℂ) := by
    intro z
    rw [form (fun i => starRingEnd ℂ (z i)) z, Complex.ofReal_sum]
    refine sum_congr rfl (fun f hf => ?_)
    rw [← re_form (K f) (sym f) (fun i => r f i * z (number vs (((F f).map m.heVertex).get i)))]
    refine sum_congr rfl (fun i _ => sum_congr rfl (fun j _ => ?_))
    rw [map_mul]; ring
  -- the turned vectors
  have turned : ∀ f (hf : f ∈ m.faces) (z : ℕ → ℂ) (i : _root_.Fin ((F f).map m.heVertex).length),
      (Q ((F f).get (i.cast (List.length_map _))) (tangent (tv (m.heVertex ((F f).get (i.cast (List.length_map _)))))
        (z (number vs (m.heVertex ((F f).get (i.cast (List.length_map _)))))))).toEigen =
      Poly.place (tf f).1.toEigen (tf f).2.toEigen (r f i * z (number vs (((F f).map m.heVertex).get i))) := by
    intro f hf z i
    rw [hQ, toEigen_ofEigen, place_tangent, (mem f hf i).2, ← vert f hf i]
    exact (Poly.corner_spec (ht f hf).frame (hw' f hf i).frame (by rw [toEigen_dot]; exact not_lt.2 (ho' f hf i))).2 _
  have pos' := fun (f : ℕ) (hf : f ∈ m.faces) (φ : _root_.Fin ((F f).map m.heVertex).length → ℝ) =>
    Poly.laplacian_pos (p := polyMatrix pos ((F f).map m.heVertex)) (N := (N f).toEigen) (two f hf) (hp f hf) hl φ
  refine ⟨M, P, number vs, Q, sideWeight K, m1, p1, R.iv.1, fun h hl' hx => ?_, fun x y => ?_, fun z => ?_, fun z => ?_, fun z => ⟨fun h0 => ?_, fun h0 => ?_⟩⟩
  · have hh := mem_ints.2 ⟨hl', hx⟩
    have b1 := (hw h hl' hx).frame.unit
    have b2 := (ht _ (int_face hv hh)).frame.unit
    rw [toEigen_dot] at b1 b2
    exact turn_isTurn b1 b2 (ho h hl' hx)
  · rw [p2, ← form_sides hv hF]
    refine sum_congr rfl (fun f hf => ?_)
    simp only [dotProduct, mulVec, mul_sum, around]
    refine sum_congr rfl (fun i _ => sum_congr rfl (fun j _ => ?_))
    rw [vert f hf, vert f hf]
    ring
  · rw [quad, ← form_sides hv hF K (fun h g => (Q h (tangent (tv (m.heVertex h)) (z (number vs (m.heVertex h))))).dot
          (Q g (tangent (tv (m.heVertex g)) (z (number vs (m.heVertex g))))))]
    congr 1
    refine sum_congr rfl (fun f hf => ?_)
    simp only [dotProduct, mulVec, mul_sum]
    rw [← sum_add_distrib]
    refine sum_congr rfl (fun i _ => ?_)
    rw [← sum_add_distrib]
    refine sum_congr rfl (fun j _ => ?_)
    rw [← toEigen_dot, turned f hf, turned f hf, place_dot (ht f hf).frame]
    ring
  · rw [quad, Complex.ofReal_re]
    exact sum_nonneg (fun f hf => add_nonneg (pos' f hf _).1 (pos' f hf _).1)
  · have e : ∑ i ∈ range m.nV, ∑ j ∈ range m.nV, starRingEnd ℂ (z i) * M i j * z j = 0 := by
      refine sum_eq_zero (fun i hi => ?_)
      have := h0 i (mem_range.1 hi)
      simp only [mul_assoc]
      rw [← mul_sum, this, mul_zero]
    rw [quad] at e
    have e := Complex.ofReal_eq_zero.1 e
    have e := (sum_eq_zero_iff_of_nonneg (fun f hf => add_nonneg (pos' f hf _).1 (pos' f hf _).1)).1 e
    intro h hl' hx
    have hh := mem_ints.2 ⟨hl', hx⟩
    have hf := int_face hv hh
    have e := e _ hf
    have c1 := (pos' _ hf _).2.1 (le_antisymm (by linarith [(pos' _ hf (fun i => (r (m.heFace h) i * z (number vs (((F (m.heFace h)).map m.heVertex).get i))).im)).1]) (pos' _ hf (fun i => (r (m.heFace h) i * z (number vs (((F (m.heFace h)).map m.heVertex).get i))).re)).1)
    have c2 := (pos' _ hf _).2.1 (le_antisymm (by linarith [(pos' _ hf (fun i => (r (m.heFace h) i * z (number vs (((F (m.heFace h)).map m.heVertex).get i))).re)).1]) (pos' _ hf (fun i => (r (m.heFace h) i * z (number vs (((F (m.heFace h)).map m.heVertex).get i))).im)).1)
    obtain ⟨k, hk, hk2⟩ := List.getElem_of_mem ((hF.mem _ hf h).2 ⟨hh, rfl⟩)
    obtain ⟨k', hk', hk2'⟩ := List.getElem_of_mem ((hF.mem _ hf (m.heNext h)).2 ⟨int_next hv hh, hv.face_next hl'⟩)
    have t1 := turned _ hf z ⟨k, by rwa [List.length_map]⟩
    have t2 := turned _ hf z ⟨k', by rwa [List.length_map]⟩
    have c : ∀ (k : ℕ) (hk : k < (F (m.heFace h)).length), (F (m.heFace h)).get ((⟨k, by rwa [List.length_map]⟩ : _root_.Fin ((F (m.heFace h)).map m.heVertex).length).cast (List.length_map _)) = (F (m.heFace h))[k] := fun _ _ => rfl
    rw [c k hk, hk2] at t1
    rw [c k' hk', hk2'] at t2
    apply toEigen_inj
    rw [t1, t2]
    congr 1
    exact Complex.ext (c1 _ _) (c2 _ _)
  · intro i hi
    have e : ∑ a ∈ range m.nV, ∑ b ∈ range m.nV, (if a = i then (1 : ℂ) else 0) * M a b * z b = ∑ j ∈ range m.nV, M i j * z j := by
      rw [sum_eq_single i]
      · simp
      · intro b _ h; simp [h]
      · intro h; exact absurd (mem_range.2 hi) h
    rw [← e, form (fun a => if a = i then 1 else 0) z]
    refine sum_eq_zero (fun f hf => sum_eq_zero (fun i' _ => ?_))
    have const : ∀ a b : _root_.Fin ((F f).map m.heVertex).length, r f a * z (number vs (((F f).map m.heVertex).get a)) = r f b * z (number vs (((F f).map m.heVertex).get b)) := by
      have step : ∀ a, r f (Poly.cyc a) * z (number vs (((F f).map m.heVertex).get (Poly.cyc a))) = r f a * z (number vs (((F f).map m.heVertex).get a)) := by
        intro a
        apply place_inj (ht f hf).frame
        rw [← turned f hf z a, ← turned f hf z (Poly.cyc a)]
        have hn : (F f).get ((Poly.cyc a).cast (List.length_map _)) = m.heNext ((F f).get (a.cast (List.length_map _))) := by
          have hi : a.1 < (F f).length := Nat.lt_of_lt_of_eq a.2 (List.length_map _)
          have h := hF.next f hf a.1 _ (List.getElem?_eq_getElem hi)
          obtain ⟨h1, h2⟩ := List.getElem?_eq_some_iff.1 h
          simp only [List.get_eq_getElem, Poly.cyc, List.length_map, Fin.val_cast]
          exact h2
        rw [hn]
        obtain ⟨q1, q2⟩ := mem_ints.1 (mem f hf a).1
        rw [h0 _ q1 q2]
      intro a b
      exact Complex.ext (Poly.cyc_const (φ := fun a => (r f a * z (number vs (((F f).map m.heVertex).get a))).re) (fun a => by rw [step]) a b)
        (Poly.cyc_const (φ := fun a => (r f a * z (number vs (((F f).map m.heVertex).get a))).im) (fun a => by rw [step]) a b)
    have e : ∀ j, (K f i' j : ℂ) * (((if number vs (((F f).map m.heVertex).get i') = i then (1 : ℂ) else 0) * starRingEnd ℂ (r f i')) *
        (r f j * z (number vs (((F f).map m.heVertex).get j)))) = (K f i' j : ℂ) * (((if number vs (((F f).map m.heVertex).get i') = i then (1 : ℂ) else 0) * starRingEnd ℂ (r f i')) *
        (r f i' * z (number vs (((F f).map m.heVertex).get i')))) := fun j => by rw [const j i']
    rw [sum_congr rfl (fun j _ => e j), ← sum_mul, ← Complex.ofReal_sum, laplacian_row (two f hf), Complex.ofReal_zero, zero_mul]

theorem basis_expand {t : V3 × V3} {n X : V3} (h : IsBasis t n) (hX : X.dot n = 0) : tangent t ⟨X.dot t.1, X.dot t.2⟩ = X := by
  apply toEigen_inj
  have := h.frame.expand (u := X.toEigen) (by rw [dotProduct_comm, toEigen_dot]; exact hX)
  rw [dotProduct_comm _ X.toEigen, dotProduct_comm _ X.toEigen, toEigen_dot, toEigen_dot] at this
  unfold tangent
  rw [toEigen_add, toEigen_smul, toEigen_smul]
  exact this.symm

/-- **C87, flat meshes.** If all normals agree, every constant tangent field is in the kernel: the matrix is never positive definite. -/
theorem C87_flat (m : Mesh) (pos : ℕ → V3) (lam : ℝ) (hv : m.Valid) (hl : 0 < lam) {A : ℕ → ℝ} {N : ℕ → V3} (hA : m.faceAreasE pos = .ok A)
    (hN : m.faceNormalsE pos = .ok N) (hp : ∀ f, m.fLive f → f < m.nFFill → 0 < A f) (n : V3) (hn : n.dot n = 1) (nv : ℕ → V3) (tv tf : ℕ → V3 × V3)
    (ht : ∀ f, m.fLive f → f < m.nFFill → IsBasis (tf f) (N f)) (hw : ∀ v, m.vLive v → IsBasis (tv v) (nv v))
    (e1 : ∀ f, m.fLive f → f < m.nFFill → N f = n) (e2 : ∀ v, m.vLive v → nv v = n) :
    ∃ M ind, m.connectionWith pos lam nv tv tf = .ok M ∧ m.getVertexIndices = .ok ind ∧ ∀ X : V3, X.dot n = 0 → ∃ z : ℕ → ℂ,
      (∀ v, m.vLive v → tangent (tv v) (z (ind v)) = X) ∧ ∀ i < m.nV, ∑ j ∈ range m.nV, M i j * z j = 0 := by
  have face : ∀ h, m.heLive h → ¬ m.ext h → m.fLive (m.heFace h) ∧ m.heFace h < m.nFFill := fun h a b => mem_faces.1 (int_face hv (mem_ints.2 ⟨a, b⟩))
  obtain ⟨M, P, ind, Q, K, m1, -, i1, t, -, -, -, k⟩ := C87_connection m pos lam hv hl hA hN hp nv tv tf ht (fun h a _ => hw _ (hv.vertex_live _ a)) (fun h a b => by
    rw [e1 _ (face h a b).1 (face h a b).2, e2 _ (hv.vertex_live _ a), hn]; norm_num)
  obtain ⟨vs, hs, is, es, fs, R⟩ := hv.ranges
  obtain ⟨r1, r2⟩ := R.iv
  rw [i1] at r1
  injection r1 with r1
  rw [← r1] at r2
  refine ⟨M, ind, m1, i1, fun X hX => ?_⟩
  have inv : ∃ g : ℕ → ℕ, ∀ v, m.vLive v → g (ind v) = v := by
    refine ⟨fun i => if h : ∃ v, m.vLive v ∧ ind v = i then h.choose else 0, fun v hl => ?_⟩
    have h : ∃ w, m.vLive w ∧ ind w = ind v := ⟨v, hl, rfl⟩
    show (if h : ∃ w, m.vLive w ∧ ind w = ind v then h.choose else 0) = v
    rw [dif_pos h]
    obtain ⟨c1, c2⟩ := h.choose_spec
    rcases Nat.lt_trichotomy h.choose v with c | c | c
    · exact absurd c2 (r2.2.2 _ _ c1 hl c).ne
    · exact c
    · exact absurd c2 (r2.2.2 _ _ hl c1 c).ne'
  obtain ⟨g, hg⟩ := inv
  have tz : ∀ v, m.vLive v → tangent (tv v) ⟨X.dot (tv (g (ind v))).1, X.dot (tv (g (ind v))).2⟩ = X := fun v hl => by
    rw [hg v hl]
    exact basis_expand (hw v hl) (by rw [e2 v hl]; exact hX)
  refine ⟨fun i => ⟨X.dot (tv (g i)).1, X.dot (tv (g i)).2⟩, tz, (k _).2 (fun h a b => ?_)⟩
  have key : ∀ h, m.heLive h → ¬ m.ext h → Q h X = X := fun h a b => (t h a b).axis X (by rw [e2 _ (hv.vertex_live _ a)]; exact hX)
    (by rw [e1 _ (face h a b).1 (face h a b).2]; exact hX)
  have nx := mem_ints.1 (int_next hv (mem_ints.2 ⟨a, b⟩))
  rw [tz _ (hv.vertex_live _ a), tz _ (hv.vertex_live _ nx.1), key h a b, key _ nx.1 nx.2]

theorem assertTriangles_throw {l : List ℕ} {f : ℕ} (hf : f ∈ l) (h : m.heNext (m.heNext (m.heNext (m.fHalfedge f))) ≠ m.fHalfedge f) :
    m.assertTriangles l = .error .throw := by
  induction l with
  | nil => simp at hf
  | cons a l ih =>
    unfold assertTriangles
    by_cases c : m.heNext (m.heNext (m.heNext (m.fHalfedge a))) = m.fHalfedge a
    · rw [if_pos c]
      rcases List.mem_cons.1 hf with rfl | hf
      · exact absurd c h
      · exact ih hf
    · rw [if_neg c]

theorem assertTriangles_ok {l : List ℕ} (h : ∀ f ∈ l, m.heNext (m.heNext (m.heNext (m.fHalfedge f))) = m.fHalfedge f) : m.assertTriangles l = .ok () := by
  induction l with
  | nil => rfl
  | cons a l ih =>
    unfold assertTriangles
    rw [if_pos (h a List.mem_cons_self)]
    exact ih (fun f hf => h f (List.mem_cons_of_mem _ hf))

/-- **C87, polygons (negative).** On every mesh with a face that is not a triangle the connection Laplacian for polygon meshes throws. -/
theorem C87_throws (m : Mesh) (pos : ℕ → V3) (nan : V2) (lam : ℝ) (hv : m.Valid) {h : ℕ} (hl : m.heLive h) (hx : ¬ m.ext h)
    (h3 : m.heNext (m.heNext (m.heNext h)) ≠ h) : m.polygonVertexConnectionLaplacian pos nan lam = .error .throw := by
  obtain ⟨vs, hs, is, es, fs, R⟩ := hv.ranges
  have hf := int_face hv (mem_ints.2 ⟨hl, hx⟩)
  have hf' := mem_faces.1 hf
  obtain ⟨l0, e0⟩ := hv.f_he _ hf'.1
  obtain ⟨k, hk⟩ := (hv.face_iff _ _ l0 hl).1 e0
  have ne : m.heNext (m.heNext (m.heNext (m.fHalfedge (m.heFace h)))) ≠ m.fHalfedge (m.heFace h) := by
    intro c
    apply h3
    rw [← hk, ← Function.iterate_succ_apply' m.heNext, ← Function.iterate_succ_apply' m.heNext, ← Function.iterate_succ_apply' m.heNext]
    rw [Function.iterate_succ_apply, Function.iterate_succ_apply, Function.iterate_succ_apply, c]
  unfold polygonVertexConnectionLaplacian
  simp only [bind, Except.bind, R.f, assertTriangles_throw ((R.mf _).2 hf) ne]

/-- **C87, triangles.** On triangle meshes the matrix is made without error and is Hermitian; the bases of the faces are oriented orthonormal bases, those of the
vertices are normal to the vertex normals, which need not be the normals used to turn them into the faces. -/
theorem C87_triangle_partial (m : Mesh) (pos : ℕ → V3) (nan : V2) (lam : ℝ) (hv : m.Valid) (ht : m.TriFaces) (hn : m.NonDegenerate pos) :
    ∃ N NV PV tv tf M, m.faceNormalsE pos = .ok N ∧ m.vertexNormalsE pos = .ok NV ∧ m.polygonVertexNormals pos = .ok PV ∧ m.faceTangentBasisE pos nan = .ok tf ∧
      m.vertexTangentBasisE pos = .ok tv ∧ m.polygonVertexConnectionLaplacian pos nan lam = .ok M ∧ m.connectionWith pos lam PV tv tf = .ok M ∧
      (∀ i < m.nV, ∀ j < m.nV, M i j = starRingEnd ℂ (M j i)) ∧ (∀ f, m.fLive f → f < m.nFFill → IsBasis (tf f) (N f)) ∧
      ∀ v, m.vLive v → (NV v).norm = 1 → (tv v).1 ≠ ⟨0, 0, 0⟩ → IsBasis (tv v) (NV v) := by
  obtain ⟨vs, hs, is, es, fs, R⟩ := hv.ranges
  obtain ⟨F, hF⟩ := hv.faceLoops
  obtain ⟨A, a1, a2⟩ := faceAreasE_loops (pos := pos) hF R
  obtain ⟨N, tf, len, vec, n1, t1, -, -, t2⟩ := C70_face_basis m pos nan hv ht hn
  obtain ⟨NV, tv, n2, t3, t4⟩ := C70_vertex_basis m pos hv ht hn
  have key : ∀ v ∈ vs, ∃ l, m.navVertexFaces v = .ok l := by
    intro v hvv
    obtain ⟨l, -, -, -, -, -, -, -, -, h3⟩ := C49_vertex_outgoing m hv v (mem_verts.1 ((R.mv v).1 hvv))
    exact ⟨_, h3⟩
  choose! L k1 using key
  obtain ⟨PV, p1⟩ : ∃ PV, m.polygonVertexNormals pos = .ok PV := by
    unfold polygonVertexNormals
    simp only [bind, Except.bind, a1, n1, R.v]
    exact ⟨_, assignM_ok (f := fun v => ((L v).foldl (fun s f => V3.add s ((N f).smul (A f))) ⟨0, 0, 0⟩).sdiv
      ((L v).foldl (fun s f => V3.add s ((N f).smul (A f))) ⟨0, 0, 0⟩).norm) (fun v hvv => by rw [k1 v hvv]) _⟩
  obtain ⟨M, m1, m2⟩ := C87_hermitian m pos lam hv PV tv tf
  have tri : ∀ f ∈ fs, m.heNext (m.heNext (m.heNext (m.fHalfedge f))) = m.fHalfedge f := by
    intro f hf
    obtain ⟨q1, q2⟩ := mem_faces.1 ((R.mf f).1 hf)
    obtain ⟨l0, e0⟩ := hv.f_he _ q1
    exact ht _ l0 (by unfold ext; rw [e0]; omega)
  refine ⟨N, NV, PV, tv, tf, M, n1, n2, p1, t1, t3, ?_, m1, m2, fun f q1 q2 => ?_, fun v q1 q2 q3 => ?_⟩
  · unfold polygonVertexConnectionLaplacian
    simp only [bind, Except.bind, R.f, assertTriangles_ok tri, t1, t3, p1, m1]
  · obtain ⟨l0, e0⟩ := hv.f_he _ q1
    have := t2 _ l0 (by unfold ext; rw [e0]; omega)
    rw [e0] at this
    exact ⟨this.1, this.2.1, this.2.2.1, this.2.2.2.1⟩
  · obtain ⟨b1, b2, b3, b4⟩ := t4 v q1 q2 q3
    have sq : ∀ w : V3, w.norm = 1 → w.dot w = 1 := fun w hw => by
      rw [← V3.norm_sq, hw, one_mul]
    exact ⟨sq _ b1, sq _ b2, b3, b4⟩

/-- The hypotheses of `C87_connection` and `C87_flat` are met by the unit square, those of `C87_triangle_partial` by the tetrahedron; on the unit square the
operator of the code throws. -/
example : (∃ M, quad.connectionWith unitPos 1 (fun _ => ⟨0, 0, 1⟩) (fun _ => (⟨1, 0, 0⟩, ⟨0, 1, 0⟩)) (fun _ => (⟨1, 0, 0⟩, ⟨0, 1, 0⟩)) = .ok M ∧
      ∃ z : ℕ → ℂ, (∃ i, z i ≠ 0) ∧ ∀ i < quad.nV, ∑ j ∈ range quad.nV, M i j * z j = 0) ∧
    ∀ nan, quad.polygonVertexConnectionLaplacian unitPos nan 1 = .error .throw := by
  obtain ⟨A, N, a1, n1, a2, n2⟩ := quad_geometry
  have f0 : ∀ f, quad.fLive f → f < quad.nFFill → f = 0 := fun f _ h => by
    have : quad.nFFill = 1 := rfl
    omega
  have b : IsBasis (⟨1, 0, 0⟩, ⟨0, 1, 0⟩) ⟨0, 0, 1⟩ := by constructor <;> norm_num [V3.dot, V3.cross]
  constructor
  · obtain ⟨M, ind, m1, -, k⟩ := C87_flat quad unitPos 1 quad_valid one_pos a1 n1 (fun f q1 q2 => by rw [f0 f q1 q2, a2]; exact one_pos) ⟨0, 0, 1⟩
      (by norm_num [V3.dot]) (fun _ => ⟨0, 0, 1⟩) (fun _ => (⟨1, 0, 0⟩, ⟨0, 1, 0⟩)) (fun _ => (⟨1, 0, 0⟩, ⟨0, 1, 0⟩))
      (fun f q1 q2 => by rw [f0 f q1 q2, n2]; exact b) (fun _ _ => b) (fun f q1 q2 => by rw [f0 f q1 q2, n2]) (fun _ _ => rfl)
    obtain ⟨z, z1, z2⟩ := k ⟨1, 0, 0⟩ (by norm_num [V3.dot])
    refine ⟨M, m1, z, ⟨ind 0, fun c => ?_⟩, z2⟩
    have := z1 0 (by decide +kernel)
    rw [c] at this
    have := congrArg V3.x this
    norm_num [tangent, V3.add, V3.smul] at this
  · exact fun nan => C87_throws quad unitPos nan 1 quad_valid (h := 0) (by decide +kernel) (by decide +kernel) (by decide +kernel)

example : ∃ M, tetra.polygonVertexConnectionLaplacian tetraPos ⟨0, 0⟩ 1 = .ok M := by
  obtain ⟨-, -, -, -, -, M, -, -, -, -, -, h, -⟩ := C87_triangle_partial tetra tetraPos ⟨0, 0⟩ 1 tetra_valid tetra_tri tetraPos_nonDegenerate
  exact ⟨M, h⟩

end Mesh
end GC
