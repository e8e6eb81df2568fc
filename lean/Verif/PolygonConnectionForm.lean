import Verif.PolygonConnection

/-! # The connection Laplacian of polygon meshes as a sum over the faces -/

namespace GC
open Matrix
open Classical Finset

namespace Poly
variable {n : ℕ} {p : Matrix (Fin n) (Fin 3) ℝ} {A : ℝ} {N : Fin 3 → ℝ}

theorem kron_blocks {h : ℕ} (M : Matrix (Fin h) (Fin n) ℝ) (R : Fin n → Matrix (Fin 2) (Fin 2) ℝ) (k : Fin h) (s : Fin 2) (j : Fin n) (c : Fin 2) :
    (kron M * blocks R) (k, s) (j, c) = M k j * R j s c := by
  rw [mul_apply, Fintype.sum_prod_type, sum_eq_single j, sum_eq_single s]
  · simp [kron, blocks]
  · intro b _ hb
    simp [kron, Ne.symm hb]
  · intro h; exact absurd (mem_univ _) h
  · intro b _ hb
    refine sum_eq_zero (fun c' _ => ?_)
    simp [blocks, hb]
  · intro h; exact absurd (mem_univ _) h

theorem square_entry {h : ℕ} (M : Matrix (Fin h) (Fin n) ℝ) (R : Fin n → Matrix (Fin 2) (Fin 2) ℝ) (i j : Fin n) (r c : Fin 2) :
    ((kron M * blocks R)ᵀ * (kron M * blocks R)) (i, r) (j, c) = (Mᵀ * M) i j * ∑ s, R i s r * R j s c := by
  rw [mul_apply, Fintype.sum_prod_type, mul_apply, sum_mul]
  refine sum_congr rfl (fun k _ => ?_)
  rw [mul_sum]
  refine sum_congr rfl (fun s _ => ?_)
  rw [transpose_apply, kron_blocks, kron_blocks, transpose_apply]
  ring

/-- The columns of a frame and its normal. -/
structure Frame (X Y N : Fin 3 → ℝ) : Prop where
  xx : X ⬝ᵥ X = 1
  yy : Y ⬝ᵥ Y = 1
  xy : X ⬝ᵥ Y = 0
  n : X ⨯₃ Y = N

theorem Frame.unit {X Y : Fin 3 → ℝ} (h : Frame X Y N) : N ⬝ᵥ N = 1 := by
  rw [← h.n, cross_sq' h.xx h.yy, h.xy]; norm_num

theorem Frame.turn {X Y : Fin 3 → ℝ} (h : Frame X Y N) : N ⨯₃ X = Y := by
  have h1 := h.xx; have h2 := h.xy
  rw [← h.n]
  simp only [dotProduct, Fin.sum_univ_three] at h1 h2
  refine ext3 ?_ ?_ ?_ <;> simp only [cross0, cross1, cross2]
  · linear_combination Y 0 * h1 - X 0 * h2
  · linear_combination Y 1 * h1 - X 1 * h2
  · linear_combination Y 2 * h1 - X 2 * h2

theorem Frame.turn' {X Y : Fin 3 → ℝ} (h : Frame X Y N) : N ⨯₃ Y = -X := by
  have h1 := h.yy; have h2 := h.xy
  rw [← h.n]
  simp only [dotProduct, Fin.sum_univ_three] at h1 h2
  refine ext3 ?_ ?_ ?_ <;> simp only [cross0, cross1, cross2, Pi.neg_apply]
  · linear_combination Y 0 * h2 - X 0 * h1
  · linear_combination Y 1 * h2 - X 1 * h1
  · linear_combination Y 2 * h2 - X 2 * h1

theorem Frame.expand {X Y : Fin 3 → ℝ} (h : Frame X Y N) {u : Fin 3 → ℝ} (hu : N ⬝ᵥ u = 0) : u = (X ⬝ᵥ u) • X + (Y ⬝ᵥ u) • Y := by
  have h1 := h.unit; have h2 := congrFun h.turn; have h3 := congrFun h.turn'; have h4 := h.n
  have k0 := congrFun h4 0; have k1 := congrFun h4 1; have k2 := congrFun h4 2
  have a0 := h2 0; have a1 := h2 1; have a2 := h2 2
  have b0 := h3 0; have b1 := h3 1; have b2 := h3 2
  simp only [cross0, cross1, cross2, Pi.neg_apply] at k0 k1 k2 a0 a1 a2 b0 b1 b2
  simp only [dotProduct, Fin.sum_univ_three] at h1 hu ⊢
  -- det (X, Y, N) u = (u·X) (Y × N) + (u·Y) (N × X) + (u·N) (X × Y)
  refine ext3 ?_ ?_ ?_ <;> simp only [Pi.add_apply, Pi.smul_apply, smul_eq_mul]
  · linear_combination -u 0 * (N 0 * k0 + N 1 * k1 + N 2 * k2 + h1) - (X 0 * u 0 + X 1 * u 1 + X 2 * u 2) * b0 + (Y 0 * u 0 + Y 1 * u 1 + Y 2 * u 2) * a0 + (X 1 * Y 2 - X 2 * Y 1) * hu
  · linear_combination -u 1 * (N 0 * k0 + N 1 * k1 + N 2 * k2 + h1) - (X 0 * u 0 + X 1 * u 1 + X 2 * u 2) * b1 + (Y 0 * u 0 + Y 1 * u 1 + Y 2 * u 2) * a1 + (X 2 * Y 0 - X 0 * Y 2) * hu
  · linear_combination -u 2 * (N 0 * k0 + N 1 * k1 + N 2 * k2 + h1) - (X 0 * u 0 + X 1 * u 1 + X 2 * u 2) * b2 + (Y 0 * u 0 + Y 1 * u 1 + Y 2 * u 2) * a2 + (X 0 * Y 1 - X 1 * Y 0) * hu

theorem frame_dot {X Y : Fin 3 → ℝ} (h : Frame X Y N) {u w : Fin 3 → ℝ} (hu : N ⬝ᵥ u = 0) :
    ((frame X Y)ᵀ *ᵥ u) ⬝ᵥ ((frame X Y)ᵀ *ᵥ w) = u ⬝ᵥ w := by
  have e : ∀ v, (frame X Y)ᵀ *ᵥ v = ![X ⬝ᵥ v, Y ⬝ᵥ v] := by
    intro v; funext c; fin_cases c <;> simp [frame, mulVec, dotProduct]
  have e2 : u ⬝ᵥ w = ((X ⬝ᵥ u) • X + (Y ⬝ᵥ u) • Y) ⬝ᵥ w := by rw [← h.expand hu]
  rw [e, e, e2, add_dotProduct, smul_dotProduct, smul_dotProduct]
  simp [dotProduct, Fin.sum_univ_two]

/-- The matrix of a face, without the rotations of the corners, is that of `polygonPerFaceLaplacian`. -/
theorem scalar_part (h2 : 2 ≤ n) {X Y : Fin 3 → ℝ} (h : Frame X Y N) (lam : ℝ) :
    A • (((frame X Y)ᵀ * gradient p A N)ᵀ * ((frame X Y)ᵀ * gradient p A N)) +
      lam • ((projection p A N * derivative n)ᵀ * (projection p A N * derivative n)) = laplacian p A N lam := by
  have e : ((frame X Y)ᵀ * gradient p A N)ᵀ * ((frame X Y)ᵀ * gradient p A N) = (gradient p A N)ᵀ * gradient p A N := by
    ext i j
    have c : ∀ {k l : ℕ} (M : Matrix (Fin k) (Fin l) ℝ) (i j : Fin l), (Mᵀ * M) i j = (fun k => M k i) ⬝ᵥ (fun k => M k j) := fun M i j => rfl
    rw [c, c]
    have f : ∀ j, (fun k => ((frame X Y)ᵀ * gradient p A N) k j) = (frame X Y)ᵀ *ᵥ (fun k => gradient p A N k j) := fun j => rfl
    rw [f, f]
    refine frame_dot h ?_
    have g : (fun k => gradient p A N k i) = (1 / A) • (N ⨯₃ (fun k => coGradient p k i)) := by
      funext k
      unfold gradient
      rw [Matrix.smul_mul, Matrix.smul_apply, Pi.smul_apply, ← bracket_mulVec]
      rfl
    rw [g, dotProduct_smul, dot_self_cross, smul_zero]
  rw [e, gradient_eq h2]
  unfold laplacian innerProduct
  simp only [transpose_neg, Matrix.neg_mul, Matrix.mul_neg, neg_neg, transpose_mul, Matrix.mul_add, Matrix.add_mul, Matrix.mul_smul, Matrix.smul_mul, Matrix.mul_assoc]

theorem connection_entry (h2 : 2 ≤ n) {X Y : Fin 3 → ℝ} (h : Frame X Y N) (R : Fin n → Matrix (Fin 2) (Fin 2) ℝ) (lam : ℝ) (i j : Fin n) (r c : Fin 2) :
    connectionLaplacian p A N (frame X Y) R lam (i, r) (j, c) = laplacian p A N lam i j * ∑ s, R i s r * R j s c := by
  unfold connectionLaplacian covGradient covProjection
  simp only [Matrix.smul_mul]
  rw [Matrix.add_apply, Matrix.smul_apply, Matrix.smul_apply, square_entry, square_entry, ← scalar_part h2 h lam, Matrix.add_apply, Matrix.smul_apply,
    Matrix.smul_apply]
  simp only [smul_eq_mul]
  ring

/-- The rotation at a corner as a complex number. -/
noncomputable def spin (Xf Yf q : Fin 3 → ℝ) : ℂ := ⟨Xf ⬝ᵥ q, Yf ⬝ᵥ q⟩

/-- A tangent vector in a frame. -/
noncomputable def place (X Y : Fin 3 → ℝ) (z : ℂ) : Fin 3 → ℝ := z.re • X + z.im • Y

theorem corner_spec {Xf Yf Xv Yv nv : Fin 3 → ℝ} (hf : Frame Xf Yf N) (hv : Frame Xv Yv nv) (hc : ¬ |nv ⬝ᵥ N + 1| < 1e-5) :
    corner (frame Xf Yf) (align nv N) (frame Xv Yv) =
        !![(spin Xf Yf (turn nv N Xv)).re, -(spin Xf Yf (turn nv N Xv)).im; (spin Xf Yf (turn nv N Xv)).im, (spin Xf Yf (turn nv N Xv)).re] ∧
      ∀ z, turn nv N (place Xv Yv z) = place Xf Yf (spin Xf Yf (turn nv N Xv) * z) := by
  have h1 : 1 + nv ⬝ᵥ N ≠ 0 := by
    intro h; apply hc; rw [add_comm, h]; norm_num
  have hq : N ⬝ᵥ turn nv N Xv = 0 := by
    have := turn_dot hv.unit hf.unit h1 nv Xv
    rw [turn_self hv.unit] at this
    rw [this, ← hv.n, dotProduct_comm, dot_self_cross]
  have ex := hf.expand hq
  have hy : turn nv N Yv = N ⨯₃ turn nv N Xv := by
    rw [← hv.turn, turn_cross hv.unit hf.unit h1, turn_self hv.unit]
  have ey : turn nv N Yv = (Xf ⬝ᵥ turn nv N Xv) • Yf - (Yf ⬝ᵥ turn nv N Xv) • Xf := by
    rw [hy]
    nth_rewrite 1 [ex]
    rw [map_add, map_smul, map_smul, hf.turn, hf.turn', smul_neg]
    exact (sub_eq_add_neg _ _).symm
  have al : ∀ w, align nv N *ᵥ w = turn nv N w := align_mulVec hv.unit hf.unit hc
  constructor
  · have e : ∀ r c, corner (frame Xf Yf) (align nv N) (frame Xv Yv) r c = ![Xf, Yf] r ⬝ᵥ turn nv N (![Xv, Yv] c) := by
      intro r c
      rw [← al]
      unfold corner
      rw [Matrix.mul_assoc, mul_apply]
      refine sum_congr rfl (fun k _ => ?_)
      have e1 : (frame Xf Yf)ᵀ r k = ![Xf, Yf] r k := by fin_cases r <;> rfl
      have e2 : (align nv N * frame Xv Yv) k c = (align nv N *ᵥ ![Xv, Yv] c) k := by fin_cases c <;> rfl
      rw [e1, e2]
    have yx : Yf ⬝ᵥ Xf = 0 := by rw [dotProduct_comm]; exact hf.xy
    ext r c
    rw [e]
    fin_cases r <;> fin_cases c <;> simp [spin, ey, dotProduct_sub, dotProduct_smul, hf.xx, hf.yy, hf.xy, yx]
  · intro z
    have lin : turn nv N (place Xv Yv z) = z.re • turn nv N Xv + z.im • turn nv N Yv := by
      rw [← al, ← al, ← al, place, mulVec_add, mulVec_smul, mulVec_smul]
    rw [lin, ey]
    nth_rewrite 1 [ex]
    unfold place spin
    simp only [Complex.mul_re, Complex.mul_im]
    refine ext3 ?_ ?_ ?_ <;> simp only [Pi.add_apply, Pi.sub_apply, Pi.smul_apply, smul_eq_mul] <;> ring

end Poly

namespace Mesh
variable {m : Mesh} {pos : ℕ → V3} {vs hs is es fs : List ℕ}

/-- The complex entry of a pair of corners. -/
noncomputable def pairEntry {n : ℕ} (S : Matrix (_root_.Fin n × _root_.Fin 2) (_root_.Fin n × _root_.Fin 2) ℝ) (i j : _root_.Fin n) : ℂ := ⟨S (i, 0) (j, 0), S (i, 1) (j, 0)⟩

theorem connectionTriplets_sum (ind : ℕ → ℕ) (l : List ℕ) (S : Matrix (_root_.Fin l.length × _root_.Fin 2) (_root_.Fin l.length × _root_.Fin 2) ℝ) (x y : ℕ → ℂ) :
    ((connectionTriplets ind l S).map (fun t => x t.1 * t.2.2 * y t.2.1)).sum =
      ∑ i, ∑ j, (x (ind (l.get i)) * (0.5 * pairEntry S i j) * y (ind (l.get j)) +
        x (ind (l.get j)) * (0.5 * starRingEnd ℂ (pairEntry S i j)) * y (ind (l.get i))) := by
  unfold connectionTriplets
  rw [sum_flatMap, sum_finRange, sum_comm]
  refine sum_congr rfl (fun j _ => ?_)
  rw [sum_flatMap, sum_finRange]
  refine sum_congr rfl (fun i _ => ?_)
  simp only [List.map_cons, List.map_nil, List.sum_cons, List.sum_nil, add_zero]
  rfl

/-- A matrix added up from complex matrices of the faces. -/
theorem assembleC {L : ℕ → List ℕ} (hv : m.Valid) (F : m.FaceLoops L) (R : m.Ranges vs hs is es fs)
    (S : (l : List ℕ) → ℕ → Matrix (_root_.Fin l.length × _root_.Fin 2) (_root_.Fin l.length × _root_.Fin 2) ℝ) :
    ∃ T, perFace (fun f => (do
      let vs' ← m.navFaceVertices f
      .ok (connectionTriplets (number vs) vs' (S vs' f)) : Res _)) fs = .ok T ∧ setFromTriplets m.nV m.nV T = .ok (entry T) ∧
      ∀ x y : ℕ → ℂ, ∑ i ∈ range m.nV, ∑ j ∈ range m.nV, x i * entry T i j * y j =
        ∑ f ∈ m.faces, ∑ i, ∑ j, (x (number vs (((L f).map m.heVertex).get i)) * (0.5 * pairEntry (S ((L f).map m.heVertex) f) i j) *
            y (number vs (((L f).map m.heVertex).get j)) +
          x (number vs (((L f).map m.heVertex).get j)) * (0.5 * starRingEnd ℂ (pairEntry (S ((L f).map m.heVertex) f) i j)) *
            y (number vs (((L f).map m.heVertex).get i))) := by
  have bd : ∀ t ∈ fs.flatMap (fun f => connectionTriplets (number vs) ((L f).map m.heVertex) (S ((L f).map m.heVertex) f)), t.1 < m.nV ∧ t.2.1 < m.nV := by
    intro t ht
    obtain ⟨f, hf, h⟩ := List.mem_flatMap.1 ht
    have hf := (R.mf f).1 hf
    unfold connectionTriplets at h
    obtain ⟨j, -, h⟩ := List.mem_flatMap.1 h
    obtain ⟨i, -, h⟩ := List.mem_flatMap.1 h
    simp only [List.mem_cons, List.not_mem_nil, or_false] at h
    rcases h with rfl | rfl
    · exact ⟨vert_index hv F R hf i, vert_index hv F R hf j⟩
    · exact ⟨vert_index hv F R hf j, vert_index hv F R hf i⟩
  refine ⟨_, perFace_ok (fun f hf => ?_), setFromTriplets_ok bd, fun x y => ?_⟩
  · simp only [F.verts f ((R.mf f).1 hf), bind, Except.bind]
  · rw [entry_pair bd, sum_flatMap, sum_of_nodup R.nf R.mf]
    exact sum_congr rfl (fun f _ => connectionTriplets_sum _ _ _ _ _)

/-- The matrix of a face in `connectionWith`. -/
noncomputable def faceConnection (pos : ℕ → V3) (lam : ℝ) (A : ℕ → ℝ) (N nv : ℕ → V3) (tv tf : ℕ → V3 × V3) (l : List ℕ) (f : ℕ) :
    Matrix (_root_.Fin l.length × _root_.Fin 2) (_root_.Fin l.length × _root_.Fin 2) ℝ :=
  Poly.connectionLaplacian (polyMatrix pos l) (A f) (N f).toEigen (Poly.frame (tf f).1.toEigen (tf f).2.toEigen)
    (fun i => Poly.corner (Poly.frame (tf f).1.toEigen (tf f).2.toEigen) (Poly.align (nv (l.get i)).toEigen (N f).toEigen)
      (Poly.frame (tv (l.get i)).1.toEigen (tv (l.get i)).2.toEigen)) lam

theorem connectionWith_form {L : ℕ → List ℕ} (hv : m.Valid) (F : m.FaceLoops L) (R : m.Ranges vs hs is es fs) {A : ℕ → ℝ} {N : ℕ → V3}
    (hA : m.faceAreasE pos = .ok A) (hN : m.faceNormalsE pos = .ok N) (lam : ℝ) (nv : ℕ → V3) (tv tf : ℕ → V3 × V3) :
    ∃ M, m.connectionWith pos lam nv tv tf = .ok M ∧ ∀ x y : ℕ → ℂ, ∑ i ∈ range m.nV, ∑ j ∈ range m.nV, x i * M i j * y j =
        ∑ f ∈ m.faces, ∑ i, ∑ j, (x (number vs (((L f).map m.heVertex).get i)) *
            (0.5 * pairEntry (faceConnection pos lam A N nv tv tf ((L f).map m.heVertex) f) i j) * y (number vs (((L f).map m.heVertex).get j)) +
          x (number vs (((L f).map m.heVertex).get j)) *
            (0.5 * starRingEnd ℂ (pairEntry (faceConnection pos lam A N nv tv tf ((L f).map m.heVertex) f) i j)) *
            y (number vs (((L f).map m.heVertex).get i))) := by
  obtain ⟨T, t1, t2, t3⟩ := assembleC hv F R (faceConnection pos lam A N nv tv tf)
  refine ⟨entry T, ?_, t3⟩
  simp only [connectionWith, hA, hN, R.iv.1, R.f, bind, Except.bind]
  simp only [bind, Except.bind, faceConnection] at t1
  rw [t1]
  exact t2

/-- The form of the matrix of a face, when the corners are rotated by complex numbers. -/
theorem spun_form {n : ℕ} (S : Matrix (_root_.Fin n × _root_.Fin 2) (_root_.Fin n × _root_.Fin 2) ℝ) (K : Matrix (_root_.Fin n) (_root_.Fin n) ℝ)
    (hK : ∀ i j, K i j = K j i) (r : _root_.Fin n → ℂ) (hS : ∀ i j, pairEntry S i j = K i j * (starRingEnd ℂ (r i) * r j)) (x y : _root_.Fin n → ℂ) :
    ∑ i, ∑ j, (x i * (0.5 * pairEntry S i j) * y j + x j * (0.5 * starRingEnd ℂ (pairEntry S i j)) * y i) =
      ∑ i, ∑ j, (K i j : ℂ) * ((x i * starRingEnd ℂ (r i)) * (r j * y j)) := by
  simp only [sum_add_distrib]
  have e : ∑ i, ∑ j, x j * (0.5 * starRingEnd ℂ (pairEntry S i j)) * y i = ∑ i, ∑ j, x i * (0.5 * starRingEnd ℂ (pairEntry S j i)) * y j := sum_comm
  rw [e, ← sum_add_distrib]
  refine sum_congr rfl (fun i _ => ?_)
  rw [← sum_add_distrib]
  refine sum_congr rfl (fun j _ => ?_)
  rw [hS, hS, hK j i, map_mul, map_mul, Complex.conj_conj, Complex.conj_ofReal]
  ring

theorem re_form {n : ℕ} (K : Matrix (_root_.Fin n) (_root_.Fin n) ℝ) (hK : ∀ i j, K i j = K j i) (w : _root_.Fin n → ℂ) :
    ∑ i, ∑ j, (K i j : ℂ) * (starRingEnd ℂ (w i) * w j) =
      (((fun i => (w i).re) ⬝ᵥ (K *ᵥ (fun i => (w i).re)) + (fun i => (w i).im) ⬝ᵥ (K *ᵥ (fun i => (w i).im)) : ℝ) : ℂ) := by
  apply Complex.ext
  · simp only [Complex.re_sum, Complex.ofReal_re, dotProduct, mulVec, mul_sum]
    rw [← sum_add_distrib]
    refine sum_congr rfl (fun i _ => ?_)
    rw [← sum_add_distrib]
    refine sum_congr rfl (fun j _ => ?_)
    simp [Complex.mul_re, Complex.mul_im]
    ring
  · simp only [Complex.im_sum, Complex.ofReal_im]
    have e : ∀ i j, ((K i j : ℂ) * (starRingEnd ℂ (w i) * w j)).im = K i j * ((w i).re * (w j).im) - K i j * ((w j).re * (w i).im) := by
      intro i j
      simp [Complex.mul_re, Complex.mul_im]
      ring
    simp only [e, sum_sub_distrib]
    rw [sub_eq_zero, sum_comm]
    exact sum_congr rfl (fun i _ => sum_congr rfl (fun j _ => by rw [hK]))

end Mesh
end GC
