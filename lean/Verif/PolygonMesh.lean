import Verif.PolygonTriangle
import Verif.Props.AreaGradient

/-! # The operators on polygon meshes, as sums over the faces -/

namespace GC
open Matrix
open Classical Finset

theorem perFace_ok {β : Type} {g : ℕ → Res (List β)} {G : ℕ → List β} : ∀ {l : List ℕ}, (∀ f ∈ l, g f = .ok (G f)) →
    Mesh.perFace g l = .ok (l.flatMap G)
  | [], _ => rfl
  | f :: l, h => by
    simp only [Mesh.perFace, bind, Except.bind, h f List.mem_cons_self, perFace_ok (fun f hf => h f (List.mem_cons_of_mem _ hf)), List.flatMap_cons]

theorem sum_finRange {n : ℕ} {α : Type} [AddCommMonoid α] (f : _root_.Fin n → α) : ((List.finRange n).map f).sum = ∑ i, f i :=
  (Fin.sum_univ_def f).symm

namespace Mesh
variable {m : Mesh} {pos : ℕ → V3} {vs hs is es fs : List ℕ}

/-- The halfedges of the faces in the order of the iterators. -/
structure FaceLoops (m : Mesh) (L : ℕ → List ℕ) : Prop where
  nav : ∀ f ∈ m.faces, m.navFaceHalfedges f = .ok (L f)
  verts : ∀ f ∈ m.faces, m.navFaceVertices f = .ok ((L f).map m.heVertex)
  deg : ∀ f ∈ m.faces, m.fDegree f = .ok (L f).length
  nodup : ∀ f ∈ m.faces, (L f).Nodup
  mem : ∀ f ∈ m.faces, ∀ i, i ∈ L f ↔ i ∈ m.ints ∧ m.heFace i = f
  next : ∀ f ∈ m.faces, ∀ j i, (L f)[j]? = some i → (L f)[(j + 1) % (L f).length]? = some (m.heNext i)

theorem Valid.faceLoops (hv : m.Valid) : ∃ L, m.FaceLoops L := by
  have key : ∀ f ∈ m.faces, ∃ L, m.navFaceHalfedges f = .ok L ∧ m.navFaceVertices f = .ok (L.map m.heVertex) ∧ m.fDegree f = .ok L.length ∧ L.Nodup ∧
      (∀ i, i ∈ L ↔ i ∈ m.ints ∧ m.heFace i = f) ∧ ∀ j i, L[j]? = some i → L[(j + 1) % L.length]? = some (m.heNext i) := by
    intro f hf
    obtain ⟨q1, q2⟩ := mem_faces.1 hf
    obtain ⟨L, a, b, c, -, d, e, g, -⟩ := C49_face_halfedges m hv f q1
    refine ⟨L, a, g, e, b, fun i => ?_, d⟩
    rw [c, mem_ints]
    constructor
    · rintro ⟨x, rfl⟩; exact ⟨⟨x, face_not_ext hv q2⟩, rfl⟩
    · rintro ⟨⟨x, -⟩, y⟩; exact ⟨x, y⟩
  choose! L k1 k2 k3 k4 k5 k6 using key
  exact ⟨L, k1, k2, k3, k4, k5, k6⟩

/-- The vertex after the one of a halfedge. -/
theorem get_cyc {L : ℕ → List ℕ} (F : m.FaceLoops L) {f : ℕ} (hf : f ∈ m.faces) (i : _root_.Fin ((L f).map m.heVertex).length) :
    ((L f).map m.heVertex).get (Poly.cyc i) = m.heVertex (m.heNext ((L f).get (i.cast (List.length_map _)))) ∧
      ((L f).map m.heVertex).get i = m.heVertex ((L f).get (i.cast (List.length_map _))) := by
  have hi : i.1 < (L f).length := Nat.lt_of_lt_of_eq i.2 (List.length_map _)
  have h := F.next f hf i.1 _ (List.getElem?_eq_getElem hi)
  obtain ⟨h1, h2⟩ := List.getElem?_eq_some_iff.1 h
  constructor
  · simp only [List.get_eq_getElem, List.getElem_map, Poly.cyc, List.length_map, Fin.val_cast]
    rw [h2]
  · simp

/-- A sum over the sides of a face. -/
theorem sum_sides {L : ℕ → List ℕ} (F : m.FaceLoops L) {f : ℕ} (hf : f ∈ m.faces) {α : Type} [AddCommMonoid α] (G : ℕ → ℕ → α) :
    ∑ i : _root_.Fin ((L f).map m.heVertex).length, G (((L f).map m.heVertex).get i) (((L f).map m.heVertex).get (Poly.cyc i)) =
      ((L f).map (fun h => G (m.heVertex h) (m.heVertex (m.heNext h)))).sum := by
  have e : (L f).map (fun h => G (m.heVertex h) (m.heVertex (m.heNext h))) =
      List.ofFn (fun i : _root_.Fin (L f).length => G (m.heVertex ((L f).get i)) (m.heVertex (m.heNext ((L f).get i)))) := by
    conv_lhs => rw [← List.ofFn_get (L f)]
    rw [List.map_ofFn]; rfl
  rw [e, List.sum_ofFn]
  refine Fintype.sum_equiv (finCongr (List.length_map _)) _ _ (fun i => ?_)
  obtain ⟨a, b⟩ := get_cyc F hf i
  rw [a, b]; rfl

/-! ## Areas and normals -/

theorem toEigen_add (u v : V3) : (u.add v).toEigen = u.toEigen + v.toEigen := by
  funext k; fin_cases k <;> rfl

theorem toEigen_smul (u : V3) (c : ℝ) : (u.smul c).toEigen = c • u.toEigen := by
  funext k; fin_cases k <;> simp [V3.toEigen, V3.smul] <;> ring

theorem toEigen_sub (u v : V3) : (u.sub v).toEigen = u.toEigen - v.toEigen := by
  funext k; fin_cases k <;> rfl

theorem toEigen_cross (u v : V3) : (u.cross v).toEigen = u.toEigen ⨯₃ v.toEigen := by
  rw [cross_apply]
  funext k
  fin_cases k <;> simp [V3.toEigen, V3.cross]

theorem toEigen_dot (u v : V3) : u.toEigen ⬝ᵥ v.toEigen = u.dot v := by
  simp [V3.toEigen, dotProduct, Fin.sum_univ_three, V3.dot]

theorem shoelace_sum (l : List ℕ) (s : V3) :
    (l.foldl (fun s h => s.add ((pos (m.heVertex h)).cross (pos (m.heVertex (m.heNext h))))) s).toEigen =
      s.toEigen + (l.map (fun h => (pos (m.heVertex h)).toEigen ⨯₃ (pos (m.heVertex (m.heNext h))).toEigen)).sum := by
  induction l generalizing s with
  | nil => simp
  | cons h l ih => rw [List.foldl_cons, ih, toEigen_add, toEigen_cross, List.map_cons, List.sum_cons, add_assoc]

/-- The vector area of the matrix of positions. -/
theorem vecArea_poly {L : ℕ → List ℕ} (F : m.FaceLoops L) {f : ℕ} (hf : f ∈ m.faces) :
    Poly.vecArea (polyMatrix pos ((L f).map m.heVertex)) = (1 / 2 : ℝ) • (m.shoelace pos (L f)).toEigen := by
  unfold Poly.vecArea shoelace
  rw [shoelace_sum, ← sum_sides F hf (fun a b => (pos a).toEigen ⨯₃ (pos b).toEigen)]
  congr 1
  have : (V3.toEigen ⟨0, 0, 0⟩) = 0 := by funext k; fin_cases k <;> rfl
  rw [this, zero_add]
  rfl

theorem faceAreasE_loops {L : ℕ → List ℕ} (F : m.FaceLoops L) (R : m.Ranges vs hs is es fs) :
    ∃ A, m.faceAreasE pos = .ok A ∧ ∀ f ∈ m.faces, A f = 0.5 * (m.shoelace pos (L f)).norm := by
  refine ⟨assign (fun _ => 0) (fun f => 0.5 * (m.shoelace pos (L f)).norm) fs, ?_, fun f hf => ?_⟩
  · unfold faceAreasE
    rw [R.f]
    show assignM _ _ fs = _
    refine assignM_ok (fun f hf => ?_) _
    simp only [F.nav f ((R.mf f).1 hf), bind, Except.bind]
    rfl
  · rw [assign_apply, if_pos ((R.mf f).2 hf)]

theorem faceNormalsE_loops {L : ℕ → List ℕ} (F : m.FaceLoops L) (R : m.Ranges vs hs is es fs) :
    ∃ N, m.faceNormalsE pos = .ok N ∧ ∀ f ∈ m.faces, m.faceNormalP pos f = .ok (N f) := by
  refine ⟨assign (fun _ => ⟨0, 0, 0⟩) (fun f => (m.normalLoop pos (L f) ⟨0, 0, 0⟩).normalize) fs, ?_, fun f hf => ?_⟩
  · unfold faceNormalsE
    rw [R.f]
    show assignM _ _ fs = _
    refine assignM_ok (fun f hf => ?_) _
    simp only [faceNormalP, F.nav f ((R.mf f).1 hf), bind, Except.bind]
  · rw [assign_apply, if_pos ((R.mf f).2 hf)]
    simp only [faceNormalP, F.nav f hf, bind, Except.bind]

theorem norm_pos_ne {u : V3} (h : 0 < u.norm) : u.toEigen ≠ 0 := by
  intro e
  have h0 := congrFun e 0; have h1 := congrFun e 1; have h2 := congrFun e 2
  simp [V3.toEigen] at h0 h1 h2
  simp [V3.norm, h0, h1, h2] at h

/-- A face with area has at least two sides. -/
theorem two_sides {L : ℕ → List ℕ} (F : m.FaceLoops L) {f : ℕ} (hf : f ∈ m.faces) (hA : 0 < (m.shoelace pos (L f)).norm) :
    2 ≤ ((L f).map m.heVertex).length := by
  refine Poly.two_le_of_area (p := polyMatrix pos ((L f).map m.heVertex)) ?_
  rw [vecArea_poly F hf]
  intro h
  rcases smul_eq_zero.1 h with h | h
  · norm_num at h
  · exact norm_pos_ne hA h

/-- The hypotheses of the local theorems, for a face whose normal is that of its vector area. -/
theorem normal_local {L : ℕ → List ℕ} (F : m.FaceLoops L) {f : ℕ} (hf : f ∈ m.faces) {A : ℝ} {N : V3} (eA : A = 0.5 * (m.shoelace pos (L f)).norm)
    (hN : m.shoelace pos (L f) = N.smul (m.shoelace pos (L f)).norm) (hA : 0 < A) :
    N.toEigen ⬝ᵥ N.toEigen = 1 ∧ Poly.vecArea (polyMatrix pos ((L f).map m.heVertex)) = A • N.toEigen := by
  have hp : 0 < (m.shoelace pos (L f)).norm := by rw [eA] at hA; linarith
  constructor
  · rw [toEigen_dot]
    have h := V3.norm_sq (m.shoelace pos (L f))
    have e : (m.shoelace pos (L f)).dot (m.shoelace pos (L f)) = (m.shoelace pos (L f)).norm * (m.shoelace pos (L f)).norm * N.dot N := by
      conv_lhs => rw [hN]
      simp only [V3.dot, V3.smul]; ring
    rw [e] at h
    have : (m.shoelace pos (L f)).norm * (m.shoelace pos (L f)).norm ≠ 0 := by positivity
    have h' : (m.shoelace pos (L f)).norm * (m.shoelace pos (L f)).norm * (N.dot N - 1) = 0 := by linarith
    rcases mul_eq_zero.1 h' with h | h
    · exact absurd h this
    · linarith
  · rw [vecArea_poly F hf]
    conv_lhs => rw [hN]
    rw [toEigen_smul, smul_smul, eA]
    norm_num

/-! ## Matrices added up over the faces -/

/-- The values of a function at the vertices of a face. -/
def around (ind : ℕ → ℕ) (x : ℕ → ℝ) (l : List ℕ) : _root_.Fin l.length → ℝ := fun i => x (ind (l.get i))

theorem faceTriplets_sum (ind : ℕ → ℕ) (l : List ℕ) (S : Matrix (_root_.Fin l.length) (_root_.Fin l.length) ℝ) (x y : ℕ → ℝ) :
    ((faceTriplets ind l S).map (fun t => x t.1 * t.2.2 * y t.2.1)).sum = around ind x l ⬝ᵥ (S *ᵥ around ind y l) := by
  unfold faceTriplets
  rw [sum_flatMap, sum_finRange]
  simp only [List.map_map, Function.comp_def, sum_finRange]
  simp only [dotProduct, mulVec, mul_sum, around]
  rw [sum_comm]
  exact sum_congr rfl (fun i _ => sum_congr rfl (fun j _ => by ring))

/-- A matrix added up from matrices of the faces. -/
theorem assemble {L : ℕ → List ℕ} (hv : m.Valid) (F : m.FaceLoops L) (R : m.Ranges vs hs is es fs)
    (S : (l : List ℕ) → ℕ → Matrix (_root_.Fin l.length) (_root_.Fin l.length) ℝ) :
    ∃ T, perFace (fun f => (do
      let vs' ← m.navFaceVertices f
      .ok (faceTriplets (number vs) vs' (S vs' f)) : Res _)) fs = .ok T ∧ setFromTriplets m.nV m.nV T = .ok (entry T) ∧
      ∀ x y : ℕ → ℝ, ∑ i ∈ range m.nV, ∑ j ∈ range m.nV, x i * entry T i j * y j =
        ∑ f ∈ m.faces, around (number vs) x ((L f).map m.heVertex) ⬝ᵥ (S ((L f).map m.heVertex) f *ᵥ around (number vs) y ((L f).map m.heVertex)) := by
  have bd : ∀ t ∈ fs.flatMap (fun f => faceTriplets (number vs) ((L f).map m.heVertex) (S ((L f).map m.heVertex) f)), t.1 < m.nV ∧ t.2.1 < m.nV := by
    intro t ht
    obtain ⟨f, hf, h⟩ := List.mem_flatMap.1 ht
    have hf := (R.mf f).1 hf
    have key : ∀ i : _root_.Fin ((L f).map m.heVertex).length, number vs (((L f).map m.heVertex).get i) < m.nV := by
      intro i
      obtain ⟨h, q1, q2⟩ := List.mem_map.1 (List.get_mem ((L f).map m.heVertex) i)
      rw [← q2]
      exact R.iv.2.1 _ (hv.vertex_live _ (mem_ints.1 ((F.mem f hf h).1 q1).1).1)
    unfold faceTriplets at h
    obtain ⟨j, -, h⟩ := List.mem_flatMap.1 h
    obtain ⟨i, -, rfl⟩ := List.mem_map.1 h
    exact ⟨key i, key j⟩
  refine ⟨_, perFace_ok (fun f hf => ?_), setFromTriplets_ok bd, fun x y => ?_⟩
  · simp only [F.verts f ((R.mf f).1 hf), bind, Except.bind]
  · rw [entry_pair bd, sum_flatMap, sum_of_nodup R.nf R.mf]
    exact sum_congr rfl (fun f _ => faceTriplets_sum _ _ _ _ _)

theorem polygonLaplacian_form {L : ℕ → List ℕ} (hv : m.Valid) (F : m.FaceLoops L) (R : m.Ranges vs hs is es fs) {A : ℕ → ℝ} {N : ℕ → V3}
    (hA : m.faceAreasE pos = .ok A) (hN : m.faceNormalsE pos = .ok N) (lam : ℝ) :
    ∃ M, m.polygonLaplacian pos lam = .ok M ∧ ∀ x y : ℕ → ℝ, ∑ i ∈ range m.nV, ∑ j ∈ range m.nV, x i * M i j * y j =
      ∑ f ∈ m.faces, around (number vs) x ((L f).map m.heVertex) ⬝ᵥ
        (Poly.laplacian (polyMatrix pos ((L f).map m.heVertex)) (A f) (N f).toEigen lam *ᵥ around (number vs) y ((L f).map m.heVertex)) := by
  obtain ⟨T, t1, t2, t3⟩ := assemble hv F R (fun l f => Poly.laplacian (polyMatrix pos l) (A f) (N f).toEigen lam)
  refine ⟨entry T, ?_, t3⟩
  simp only [polygonLaplacian, hA, hN, R.iv.1, R.f, bind, Except.bind]
  simp only [bind, Except.bind] at t1
  rw [t1]
  exact t2

theorem vert_index {L : ℕ → List ℕ} (hv : m.Valid) (F : m.FaceLoops L) (R : m.Ranges vs hs is es fs) {f : ℕ} (hf : f ∈ m.faces)
    (i : _root_.Fin ((L f).map m.heVertex).length) : number vs (((L f).map m.heVertex).get i) < m.nV := by
  obtain ⟨h, q1, q2⟩ := List.mem_map.1 (List.get_mem ((L f).map m.heVertex) i)
  rw [← q2]
  exact R.iv.2.1 _ (hv.vertex_live _ (mem_ints.1 ((F.mem f hf h).1 q1).1).1)

/-- The bilinear form of the gradient matrix. -/
theorem polygonGradientMatrix_form {L : ℕ → List ℕ} (hv : m.Valid) (F : m.FaceLoops L) (R : m.Ranges vs hs is es fs) {A : ℕ → ℝ} {N : ℕ → V3}
    (hA : m.faceAreasE pos = .ok A) (hN : m.faceNormalsE pos = .ok N) :
    ∃ G, m.polygonGradientMatrix pos = .ok G ∧ ∀ x y : ℕ → ℝ, ∑ i ∈ range (3 * m.nF), ∑ j ∈ range m.nV, x i * G i j * y j =
      ∑ f ∈ m.faces, ∑ c : _root_.Fin 3, x (3 * number fs f + c.1) * (Poly.gradient (polyMatrix pos ((L f).map m.heVertex)) (A f) (N f).toEigen *ᵥ
        around (number vs) y ((L f).map m.heVertex)) c := by
  set T := fs.flatMap (fun f => (List.finRange 3).flatMap fun (i : _root_.Fin 3) => (List.finRange ((L f).map m.heVertex).length).map fun j =>
    (3 * number fs f + i.1, number vs (((L f).map m.heVertex).get j), Poly.gradient (polyMatrix pos ((L f).map m.heVertex)) (A f) (N f).toEigen i j)) with hT
  have bd : ∀ t ∈ T, t.1 < 3 * m.nF ∧ t.2.1 < m.nV := by
    intro t ht
    obtain ⟨f, hf, h⟩ := List.mem_flatMap.1 ht
    have hf := (R.mf f).1 hf
    obtain ⟨i, -, h⟩ := List.mem_flatMap.1 h
    obtain ⟨j, -, rfl⟩ := List.mem_map.1 h
    refine ⟨?_, vert_index hv F R hf j⟩
    have := R.if'.2.1 f (mem_faces.1 hf)
    have := i.2
    simp only; omega
  refine ⟨entry T, ?_, fun x y => ?_⟩
  · simp only [polygonGradientMatrix, hA, hN, R.iv.1, R.if'.1, R.f, bind, Except.bind]
    rw [perFace_ok (G := fun f => (List.finRange 3).flatMap fun (i : _root_.Fin 3) => (List.finRange ((L f).map m.heVertex).length).map fun j =>
      (3 * number fs f + i.1, number vs (((L f).map m.heVertex).get j), Poly.gradient (polyMatrix pos ((L f).map m.heVertex)) (A f) (N f).toEigen i j))
      (fun f hf => by simp only [F.verts f ((R.mf f).1 hf)])]
    exact setFromTriplets_ok bd
  · rw [entry_pair bd, hT, sum_flatMap, sum_of_nodup R.nf R.mf]
    refine sum_congr rfl (fun f _ => ?_)
    rw [sum_flatMap, sum_finRange]
    refine sum_congr rfl (fun c _ => ?_)
    simp only [List.map_map, Function.comp_def, sum_finRange, mulVec, dotProduct, mul_sum, around]
    exact sum_congr rfl (fun j _ => by ring)

/-- The bilinear form of the divergence matrix. -/
theorem polygonDivergenceMatrix_form {L : ℕ → List ℕ} (hv : m.Valid) (F : m.FaceLoops L) (R : m.Ranges vs hs is es fs) {A : ℕ → ℝ} {N : ℕ → V3}
    (hA : m.faceAreasE pos = .ok A) (hN : m.faceNormalsE pos = .ok N) :
    ∃ D, m.polygonDivergenceMatrix pos = .ok D ∧ ∀ x y : ℕ → ℝ, ∑ j ∈ range m.nV, ∑ i ∈ range (3 * m.nF), y j * D j i * x i =
      ∑ f ∈ m.faces, ∑ c : _root_.Fin 3, A f * (x (3 * number fs f + c.1) * (Poly.gradient (polyMatrix pos ((L f).map m.heVertex)) (A f) (N f).toEigen *ᵥ
        around (number vs) y ((L f).map m.heVertex)) c) := by
  set T := fs.flatMap (fun f => (List.finRange 3).flatMap fun (i : _root_.Fin 3) => (List.finRange ((L f).map m.heVertex).length).map fun j =>
    (number vs (((L f).map m.heVertex).get j), 3 * number fs f + i.1, Poly.gradient (polyMatrix pos ((L f).map m.heVertex)) (A f) (N f).toEigen i j * A f)) with hT
  have bd : ∀ t ∈ T, t.1 < m.nV ∧ t.2.1 < 3 * m.nF := by
    intro t ht
    obtain ⟨f, hf, h⟩ := List.mem_flatMap.1 ht
    have hf := (R.mf f).1 hf
    obtain ⟨i, -, h⟩ := List.mem_flatMap.1 h
    obtain ⟨j, -, rfl⟩ := List.mem_map.1 h
    refine ⟨vert_index hv F R hf j, ?_⟩
    have := R.if'.2.1 f (mem_faces.1 hf)
    have := i.2
    simp only; omega
  refine ⟨entry T, ?_, fun x y => ?_⟩
  · simp only [polygonDivergenceMatrix, hA, hN, R.iv.1, R.if'.1, R.f, bind, Except.bind]
    rw [perFace_ok (G := fun f => (List.finRange 3).flatMap fun (i : _root_.Fin 3) => (List.finRange ((L f).map m.heVertex).length).map fun j =>
      (number vs (((L f).map m.heVertex).get j), 3 * number fs f + i.1, Poly.gradient (polyMatrix pos ((L f).map m.heVertex)) (A f) (N f).toEigen i j * A f))
      (fun f hf => by simp only [F.verts f ((R.mf f).1 hf)])]
    exact setFromTriplets_ok bd
  · rw [entry_pair bd, hT, sum_flatMap, sum_of_nodup R.nf R.mf]
    refine sum_congr rfl (fun f _ => ?_)
    rw [sum_flatMap, sum_finRange]
    refine sum_congr rfl (fun c _ => ?_)
    simp only [List.map_map, Function.comp_def, sum_finRange, mulVec, dotProduct, mul_sum, around]
    exact sum_congr rfl (fun j _ => by ring)

/-- The component of a face in a vector of three entries for each face. -/
theorem sum_component (R : m.Ranges vs hs is es fs) {f : ℕ} (hf : f ∈ m.faces) (c : _root_.Fin 3) (Q : ℕ → _root_.Fin 3 → ℝ) :
    ∑ g ∈ m.faces, ∑ d : _root_.Fin 3, (if 3 * number fs g + d.1 = 3 * number fs f + c.1 then 1 else 0) * Q g d = Q f c := by
  rw [sum_eq_single f, sum_eq_single c]
  · simp
  · intro d _ hd
    rw [if_neg (fun h => hd (Fin.ext (by omega))), zero_mul]
  · intro h; exact absurd (mem_univ _) h
  · intro g hg hgf
    refine sum_eq_zero (fun d _ => ?_)
    rw [if_neg, zero_mul]
    intro h
    have := d.2; have := c.2
    exact hgf (R.if'.2.inj (mem_faces.1 hg) (mem_faces.1 hf) (by omega))
  · intro h; exact absurd hf h

/-- Values constant along the sides are constant on the face. -/
theorem around_const {L : ℕ → List ℕ} (F : m.FaceLoops L) {f : ℕ} (hf : f ∈ m.faces) (ind : ℕ → ℕ) (u : ℕ → ℝ) :
    (∀ i j, around ind u ((L f).map m.heVertex) i = around ind u ((L f).map m.heVertex) j) ↔
      ∀ h ∈ L f, u (ind (m.heVertex (m.heNext h))) = u (ind (m.heVertex h)) := by
  constructor
  · intro h x hx
    obtain ⟨k, hk, rfl⟩ := List.getElem_of_mem hx
    have hk' : k < ((L f).map m.heVertex).length := by rwa [List.length_map]
    have := h (Poly.cyc ⟨k, hk'⟩) ⟨k, hk'⟩
    unfold around at this
    obtain ⟨a, b⟩ := get_cyc F hf ⟨k, hk'⟩
    rw [a, b] at this
    exact this
  · intro h
    refine Poly.cyc_const (fun i => ?_)
    unfold around
    obtain ⟨a, b⟩ := get_cyc F hf i
    rw [a, b]
    exact h _ (List.get_mem _ _)

/-! ## Exterior calculus -/

theorem getD_lt {l : List ℕ} {i : ℕ} (h : i < l.length) : l.getD i 0 = l[i] := by simp [h]

/-- The values of a 1-form at the halfedges of a face. -/
def aroundHe (m : Mesh) (hInd : ℕ → ℕ) (x : ℕ → ℝ) (l : List ℕ) : _root_.Fin (l.map m.heVertex).length → ℝ := fun i => x (hInd (l.getD i.1 0))

/-- The forms of the exterior calculus operators. -/
structure DecForms (m : Mesh) (pos : ℕ → V3) (lam : ℝ) (L : ℕ → List ℕ) (A : ℕ → ℝ) (N : ℕ → V3) (vInd fInd hInd : ℕ → ℕ) (o : DEC) : Prop where
  d0 : ∀ x y : ℕ → ℝ, ∑ a ∈ range m.nHe, ∑ j ∈ range m.nV, x a * o.d0 a j * y j = ∑ h ∈ m.ints, x (hInd h) * m.diff vInd y h
  d1 : ∀ x y : ℕ → ℝ, ∑ k ∈ range m.nF, ∑ a ∈ range m.nHe, x k * o.d1 k a * y a = ∑ h ∈ m.ints, x (fInd (m.heFace h)) * y (hInd h)
  h1 : ∀ x y : ℕ → ℝ, ∑ a ∈ range m.nHe, ∑ b ∈ range m.nHe, x a * o.hodge1 a b * y b = ∑ f ∈ m.faces, m.aroundHe hInd x (L f) ⬝ᵥ
    (Poly.innerProduct (polyMatrix pos ((L f).map m.heVertex)) (A f) (N f).toEigen lam *ᵥ m.aroundHe hInd y (L f))
  h0 : ∑ i ∈ range m.nV, o.hodge0 i i = ∑ f ∈ m.faces, ((L f).length : ℝ) * (A f / (L f).length)
  h0' : ∀ i j, i ≠ j → o.hodge0 i j = 0
  h2 : ∀ f ∈ m.faces, o.hodge2 (fInd f) (fInd f) = 1 / A f

theorem polygonDEC_forms {L : ℕ → List ℕ} (hv : m.Valid) (F : m.FaceLoops L) (R : m.Ranges vs hs is es fs) {A : ℕ → ℝ} {N : ℕ → V3}
    (hA : m.faceAreasE pos = .ok A) (hN : m.faceNormalsE pos = .ok N) (lam : ℝ) {hInd : ℕ → ℕ} (eH : m.getHalfedgeIndices = .ok hInd)
    (iH : IsIndex hInd m.heLive m.nHe) :
    ∃ o, m.polygonDEC pos lam = .ok o ∧ m.DecForms pos lam L A N (number vs) (number fs) hInd o := by
  obtain ⟨r, r1, -, r2, r3⟩ := nested_faces hv R
  have bv : ∀ h ∈ m.ints, number vs (m.heVertex h) < m.nV := fun h hh => R.iv.2.1 _ (hv.vertex_live _ (mem_ints.1 hh).1)
  have bh : ∀ h ∈ m.ints, hInd h < m.nHe := fun h hh => iH.1 h (mem_ints.1 hh).1
  have bf : ∀ f ∈ m.faces, number fs f < m.nF := fun f hf => R.if'.2.1 f (mem_faces.1 hf)
  set T0 := r.flatMap (fun p => [(hInd p.2, number vs (m.heVertex p.2), (-1 : ℝ)), (hInd p.2, number vs (m.heVertex (m.heNext p.2)), 1)]) with hT0
  set T1 := r.map (fun p => (number fs p.1, hInd p.2, (1 : ℝ))) with hT1
  set T2 := fs.flatMap (fun f => (List.finRange ((L f).map m.heVertex).length).flatMap fun (j : _root_.Fin ((L f).map m.heVertex).length) =>
    (List.finRange ((L f).map m.heVertex).length).map fun (i : _root_.Fin ((L f).map m.heVertex).length) =>
      (hInd ((L f).getD i.1 0), hInd ((L f).getD j.1 0), Poly.innerProduct (polyMatrix pos ((L f).map m.heVertex)) (A f) (N f).toEigen lam i j)) with hT2
  have b0 : ∀ t ∈ T0, t.1 < m.nHe ∧ t.2.1 < m.nV := by
    intro t ht
    obtain ⟨p, hp, h⟩ := List.mem_flatMap.1 ht
    have q := (r2 p hp).2
    simp only [List.mem_cons, List.not_mem_nil, or_false] at h
    rcases h with rfl | rfl
    · exact ⟨bh _ q, bv _ q⟩
    · exact ⟨bh _ q, bv _ (int_next hv q)⟩
  have b1 : ∀ t ∈ T1, t.1 < m.nF ∧ t.2.1 < m.nHe := by
    intro t ht
    obtain ⟨p, hp, rfl⟩ := List.mem_map.1 ht
    obtain ⟨q1, q⟩ := r2 p hp
    refine ⟨?_, bh _ q⟩
    simp only
    rw [q1]; exact bf _ (int_face hv q)
  have get : ∀ f ∈ m.faces, ∀ i : _root_.Fin ((L f).map m.heVertex).length, (L f).getD i.1 0 ∈ m.ints := by
    intro f hf i
    have hi : i.1 < (L f).length := Nat.lt_of_lt_of_eq i.2 (List.length_map _)
    rw [getD_lt hi]
    exact ((F.mem f hf _).1 (List.getElem_mem hi)).1
  have b2 : ∀ t ∈ T2, t.1 < m.nHe ∧ t.2.1 < m.nHe := by
    intro t ht
    obtain ⟨f, hf, h⟩ := List.mem_flatMap.1 ht
    have hf := (R.mf f).1 hf
    obtain ⟨j, -, h⟩ := List.mem_flatMap.1 h
    obtain ⟨i, -, rfl⟩ := List.mem_map.1 h
    exact ⟨bh _ (get f hf i), bh _ (get f hf j)⟩
  set lh := fs.flatMap (fun f => ((L f).map m.heVertex).map (fun v => (number vs v, A f / (((L f).map m.heVertex).length : ℝ)))) with hlh
  have eh0 : m.polygonHodge0 pos = .ok (accum (fun p => p.1) (fun p => p.2) lh) := by
    simp only [polygonHodge0, hA, R.iv.1, R.f, bind, Except.bind]
    rw [perFace_ok (G := fun f => ((L f).map m.heVertex).map (fun v => (number vs v, A f / (((L f).map m.heVertex).length : ℝ))))
      (fun f hf => by simp only [F.verts f ((R.mf f).1 hf)])]
  refine ⟨⟨diagonal (accum (fun p => p.1) (fun p => p.2) lh), entry T2, diagonal (fillVector (number fs) (fun f => 1 / A f) fs), entry T0, entry T1⟩, ?_, ?_⟩
  · simp only [polygonDEC, hA, hN, R.iv.1, R.if'.1, eH, R.f, r1, eh0, bind, Except.bind]
    rw [perFace_ok (G := fun f => (List.finRange ((L f).map m.heVertex).length).flatMap fun (j : _root_.Fin ((L f).map m.heVertex).length) =>
      (List.finRange ((L f).map m.heVertex).length).map fun (i : _root_.Fin ((L f).map m.heVertex).length) =>
      (hInd ((L f).getD i.1 0), hInd ((L f).getD j.1 0), Poly.innerProduct (polyMatrix pos ((L f).map m.heVertex)) (A f) (N f).toEigen lam i j))
      (fun f hf => by simp only [F.verts f ((R.mf f).1 hf), F.nav f ((R.mf f).1 hf)])]
    have e0 := setFromTriplets_ok b0
    have e1 := setFromTriplets_ok b1
    have e2 := setFromTriplets_ok b2
    rw [hT0] at e0; rw [hT1] at e1; rw [hT2] at e2
    simp only [e0, e1, e2]
    rfl
  · refine ⟨fun x y => ?_, fun x y => ?_, fun x y => ?_, ?_, fun i j h => if_neg h, fun f hf => ?_⟩
    · rw [entry_pair b0, hT0, sum_flatMap, r3]
      refine sum_congr rfl (fun h _ => ?_)
      simp only [List.map_cons, List.map_nil, List.sum_cons, List.sum_nil, diff]
      ring
    · rw [entry_pair b1, hT1, List.map_map, r3]
      refine sum_congr rfl (fun h _ => ?_)
      simp only [Function.comp]
      ring
    · rw [entry_pair b2, hT2, sum_flatMap, sum_of_nodup R.nf R.mf]
      refine sum_congr rfl (fun f _ => ?_)
      rw [sum_flatMap, sum_finRange]
      simp only [List.map_map, Function.comp_def, sum_finRange]
      simp only [dotProduct, mulVec, mul_sum, aroundHe]
      rw [sum_comm]
      exact sum_congr rfl (fun i _ => sum_congr rfl (fun j _ => by ring))
    · have e : ∀ i, diagonal (accum (fun p : ℕ × ℝ => p.1) (fun p => p.2) lh) i i = (lh.map (fun p => if p.1 = i then p.2 else 0)).sum := by
        intro i; unfold diagonal; rw [if_pos rfl, accum_apply]
      simp only [e]
      have sw : ∀ l : List (ℕ × ℝ), (∀ p ∈ l, p.1 < m.nV) → ∑ i ∈ range m.nV, (l.map (fun p => if p.1 = i then p.2 else 0)).sum = (l.map (fun p => p.2)).sum := by
        intro l
        induction l with
        | nil => intro _; simp
        | cons p l ih =>
          intro h
          simp only [List.map_cons, List.sum_cons, sum_add_distrib]
          rw [ih (fun q hq => h q (List.mem_cons_of_mem _ hq)), sum_ite_eq, if_pos (mem_range.2 (h p List.mem_cons_self))]
      rw [sw, hlh, sum_flatMap, sum_of_nodup R.nf R.mf]
      · refine sum_congr rfl (fun f _ => ?_)
        rw [List.map_map, List.map_map]
        simp [Function.comp_def]
      · intro p hp
        obtain ⟨f, hf, h⟩ := List.mem_flatMap.1 hp
        obtain ⟨v, hv', rfl⟩ := List.mem_map.1 h
        obtain ⟨x, hx, rfl⟩ := List.mem_map.1 hv'
        exact bv _ ((F.mem f ((R.mf f).1 hf) x).1 hx).1
    · refine (if_pos rfl).trans ?_
      exact fillVector_apply (val := fun f => 1 / A f) ((R.mf f).2 hf) (fun g hg e => R.if'.2.inj (mem_faces.1 ((R.mf g).1 hg)) (mem_faces.1 hf) e)

/-- The exterior derivative of a function at the halfedges of a face. -/
theorem aroundHe_diff {L : ℕ → List ℕ} (F : m.FaceLoops L) {f : ℕ} (hf : f ∈ m.faces) (h2 : 2 ≤ ((L f).map m.heVertex).length) {hInd vInd : ℕ → ℕ}
    {x u : ℕ → ℝ} (hx : ∀ h ∈ m.ints, x (hInd h) = m.diff vInd u h) :
    m.aroundHe hInd x (L f) = Poly.derivative _ *ᵥ around vInd u ((L f).map m.heVertex) := by
  funext i
  rw [Poly.derivative_mulVec h2]
  unfold around
  obtain ⟨a, b⟩ := get_cyc F hf i
  rw [a, b]
  have hi : i.1 < (L f).length := Nat.lt_of_lt_of_eq i.2 (List.length_map _)
  unfold aroundHe
  rw [getD_lt hi, hx _ ((F.mem f hf _).1 (List.getElem_mem hi)).1]
  rfl

end Mesh
end GC
