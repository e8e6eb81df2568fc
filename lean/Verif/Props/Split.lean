import Verif.MeshSplit
import Verif.Props.Insert
import Verif.Props.Connect

/-! # Property C07: splitEdgeTriangular -/

namespace GC
open Mesh

/-- **C07, partial.** Full claim: `splitEdgeTriangular` works on every edge whose interior faces are
triangles. Missing: edges with the same triangle on both sides (`C07_splitEdgeTriangular_fails`).
Otherwise the call runs out of memory or returns halfedge `2e` with a valid mesh with one more vertex
`m.nVFill`; `2e` now leaves that vertex and keeps its tip. The new vertex has degree 4 (3 if the edge is on
the boundary): its outgoing halfedges are `2e`, the new half of the split edge, and one new halfedge in each
interior face, to the opposite corner. All interior faces around the new vertex are triangles. -/
theorem C07_splitEdgeTriangular_partial (m : Mesh) (hv : m.Valid) (e : ℕ) (he : m.heLive (2 * e))
    (hfaces : m.heFace (2 * e) ≠ m.heFace (2 * e + 1))
    (tri1 : m.heNext (m.heNext (m.heNext (2 * e))) = 2 * e)
    (tri2 : m.ext (2 * e + 1) ∨ m.heNext (m.heNext (m.heNext (2 * e + 1))) = 2 * e + 1) :
    (m.splitEdgeTriangular e = .error .oom ∧ m.nearLimit 3) ∨
    ∃ m' d, m.splitEdgeTriangular e = .ok (m', 2 * e) ∧ m'.Valid ∧
      d = (if m.ext (2 * e + 1) then 1 else 2) ∧
      m'.nV = m.nV + 1 ∧ m'.nE = m.nE + 1 + d ∧ m'.nF = m.nF + d ∧ m'.nBL = m.nBL ∧
      m'.tip (2 * e) = m.tip (2 * e) ∧ m'.tip (m.nHeFill + 1) = m.heVertex (2 * e) ∧
      m'.tip (m.nHeFill + 2) = m.heVertex (m.heNext (m.heNext (2 * e))) ∧
      (¬ m.ext (2 * e + 1) → m'.tip (m.nHeFill + 4) = m.heVertex (m.heNext (m.heNext (2 * e + 1)))) ∧
      (∀ i, m'.heLive i → (m'.heVertex i = m.nVFill ↔
        i ∈ [2 * e, m.nHeFill + 1, m.nHeFill + 2] ++ (if m.ext (2 * e + 1) then [] else [m.nHeFill + 4]))) ∧
      (∀ i, m'.heLive i → m'.heVertex i = m.nVFill → ¬ m'.ext i →
        m'.heNext (m'.heNext (m'.heNext i)) = i) ∧
      m'.heNext (m.nHeFill + 3) = 2 * e ∧ m'.heNext m.nHeFill = m.nHeFill + 2 ∧
      m'.heLive (m.nHeFill + 3) ∧ m'.heLive m.nHeFill := by
  have tw : twin (2 * e) = 2 * e + 1 := twin_two_mul e
  have nN : ∀ {i}, m.heLive i → ∀ k, i ≠ m.nHeFill + k := fun hi k => by have := hi.1; omega
  have Nn : ∀ {i}, m.heLive i → ∀ k, m.nHeFill + k ≠ i := fun hi k => by have := hi.1; omega
  have tN2 : twin (m.nHeFill + 2) = m.nHeFill + 3 := by
    have := hv.he_fill; rw [show m.nHeFill + 2 = 2 * (m.nEFill + 1) by omega, twin_two_mul]; omega
  have tN4 : twin (m.nHeFill + 4) = m.nHeFill + 5 := by
    have := hv.he_fill; rw [show m.nHeFill + 4 = 2 * (m.nEFill + 2) by omega, twin_two_mul]; omega
  have lT : m.heLive (2 * e + 1) := by rw [← tw]; exact hv.twin_live _ he
  have hdeg : m.heNext (2 * e + 1) ≠ 2 * e := by
    intro h; have := hv.face_next lT; rw [h] at this; exact hfaces this
  have hdeg' : m.heNext (2 * e) ≠ 2 * e + 1 := by
    intro h; have := hv.face_next he; rw [h] at this; exact hfaces this.symm
  have intA : ¬ m.ext (2 * e) := hv.edge_int e he
  -- the triangle tests
  have tri_of : ∀ {i}, m.heLive i → m.heNext (m.heNext (m.heNext i)) = i → m.fIsTriangle (m.heFace i) := by
    intro i hi h3
    have hf := hv.f_he _ (hv.face_live i hi)
    have o : Orb m.heNext i (m.fHalfedge (m.heFace i)) := (hv.face_iff _ _ hi hf.1).1 hf.2.symm
    unfold fIsTriangle
    refine o.induct (fun z => z = m.heNext (m.heNext (m.heNext z))) h3.symm ?_
    intro z hz; rw [← hz]
  have t1 : m.fIsTriangle (m.heFace (eHalfedge e)) := tri_of he tri1
  have hbd : m.eIsBoundary e ↔ m.ext (2 * e + 1) := by
    unfold eIsBoundary heIsInterior faceIsBL ext eHalfedge; rw [not_not, tw]
  have t2 : m.eIsBoundary e ∨ m.fIsTriangle (m.heFace (twin (eHalfedge e))) := by
    rw [hbd]
    rcases tri2 with h | h
    · exact Or.inl h
    · right; unfold eHalfedge; rw [tw]; exact tri_of lT h
  unfold splitEdgeTriangular
  rw [if_neg (not_not.2 t1), if_neg (not_not.2 t2)]
  rcases ivae_spec hv (e := e) he (by unfold eHalfedge; rw [tw]; exact hdeg) with ⟨h, lim⟩ | ⟨m1, pA, h, S⟩
  · left; rw [h]; exact ⟨rfl, lim.mono (by omega) (by omega) (by omega)⟩
  rw [h]; simp only
  have hv1 := ivae_valid hv S
  have live1 := ivae_live hv S
  unfold eHalfedge at S
  rw [tw] at S
  rw [show eHalfedge e = 2 * e from rfl]
  set N := m.nHeFill with hN
  have hAT : 2 * e ≠ 2 * e + 1 := by omega
  generalize 2 * e + 1 = T at *
  generalize 2 * e = A at *
  have twT : twin T = A := by rw [← tw, twin_twin]
  have ltn : ∀ {i}, m.heLive i → i < N := fun hi => hi.1
  have old1 : ∀ {i}, m.heLive i → m1.heLive i := fun hi => (live1 _).2 (Or.inr (Or.inr hi))
  -- names in the original mesh
  obtain ⟨b, hb⟩ : ∃ b, b = m.heNext A := ⟨_, rfl⟩
  obtain ⟨c, hc⟩ : ∃ c, c = m.heNext b := ⟨_, rfl⟩
  have lb : m.heLive b := by rw [hb]; exact hv.next_live _ he
  have lc : m.heLive c := by rw [hc]; exact hv.next_live _ lb
  have hcA : m.heNext c = A := by rw [hc, hb]; exact tri1
  have fb : m.heFace b = m.heFace A := by rw [hb]; exact hv.face_next he
  have fc : m.heFace c = m.heFace A := by rw [hc, hv.face_next lb, fb]
  have pAc : pA = c := hv.next_inj S.lp lc (by rw [S.np, hcA])
  subst pAc
  have AT : A ≠ T := hAT
  have neT : ∀ {i}, m.heFace i = m.heFace A → i ≠ T := by rintro i h rfl; exact hfaces h.symm
  have bT := neT fb
  have cT := neT fc
  have bA : b ≠ A := by rw [hb]; exact hv.deg_two _ he
  have cb : pA ≠ b := by rw [hc]; exact hv.deg_two _ lb
  have cA : pA ≠ A := by
    intro h; have h1 := hcA; rw [h] at h1; exact hv.deg_two _ he h1
  -- names of the slots
  have lA := ltn he; have llT := ltn lT; have llb := ltn lb; have llc := ltn lc
  have n1A : m1.heNext A = b := by rw [S.next_o A (nN he 0) (nN he 1) AT (fun h => cA h.symm), hb]
  have n1b : m1.heNext b = pA := by rw [S.next_o b (nN lb 0) (nN lb 1) bT (fun h => cb h.symm), hc]
  have n1c : m1.heNext pA = N := S.next_p
  have n1N : m1.heNext N = A := S.next_n0
  have n1T : m1.heNext T = N + 1 := S.next_B
  have hf1 : ∀ {i}, m.heLive i → m1.heFace i = m.heFace i := fun {i} hi =>
    S.f_o i (nN hi 0) (nN hi 1)
  have nF1 : m1.nFFill = m.nFFill := S.c_fFill
  have nHe1 : m1.nHeFill = N + 2 := S.c_heFill
  rw [n1A, n1b]
  rcases C05_connectVertices m1 hv1 A pA (old1 he) (old1 lc) (by rw [hf1 he, hf1 lc, fc])
    (by rw [hf1 he, nF1]; exact Valid.face_lt intA) (fun h => cA h.symm) (by rw [n1A]; exact fun h => cb h.symm)
    (by rw [n1c]; exact Nn he 0) with ⟨h, lim⟩ | h
  · left; rw [h]
    exact ⟨rfl, lim.mono (by rw [S.c_vFill]; omega) (by omega) (by rw [nF1, S.c_bl]; omega)⟩
  obtain ⟨m2, h, hv2, cV2, cE2, cF2, cB2, cH2, cFF2, cHF2, cVF2, -, live2, v2n, tip2n, f2n, f2n', nx2n, nx2n', nx2, v2, vh2,
    f2, f2', ext2⟩ := h
  rw [h]; simp only
  rw [nHe1] at live2 v2n tip2n f2n f2n' nx2n nx2n' nx2
  have l1N : m1.heLive N := (live1 _).2 (Or.inl rfl)
  have l1N1 : m1.heLive (N + 1) := (live1 _).2 (Or.inr (Or.inl rfl))
  have nx2A : m2.heNext A = b := by
    rw [nx2 A (old1 he), n1A, if_neg bA, if_neg (fun h => cb h.symm)]
  have nx2b : m2.heNext b = N + 3 := by
    rw [nx2 b (old1 lb), n1b, if_neg cA, if_pos rfl]
  have nx2c : m2.heNext pA = N := by
    rw [nx2 pA (old1 lc), n1c, if_neg (show N ≠ A from Nn he 0), if_neg (show N ≠ pA from Nn lc 0)]
  have nx2N : m2.heNext N = N + 2 := by
    rw [nx2 N l1N, n1N, if_pos rfl]
  have nx2T : m2.heNext T = N + 1 := by
    rw [nx2 T (old1 lT), n1T, if_neg (Nn he 1), if_neg (Nn lc 1)]
  have extT2 : m2.ext T ↔ m.ext T := by
    rw [ext2 T (old1 lT)]; unfold ext; rw [hf1 lT, nF1]
  have hint : m2.heIsInterior T ↔ ¬ m.ext T := by
    unfold heIsInterior faceIsBL; rw [← extT2]; rfl
  have old2 : ∀ {i}, m1.heLive i → m2.heLive i := fun hi => (live2 _).2 (Or.inl hi)
  have vA1 : m1.heVertex A = m.nVFill := S.v_A
  have vtx_old : ∀ {i}, m.heLive i → m.heVertex i ≠ m.nVFill := fun hi => ne_of_lt (hv.vertex_live _ hi).1
  have v1o : ∀ {i}, m.heLive i → i ≠ A → m1.heVertex i = m.heVertex i := fun {i} hi hne =>
    S.v_o i (nN hi 0) (nN hi 1) hne
  -- vertices in m2
  have w2 : ∀ i, m2.heLive i → (m2.heVertex i = m.nVFill ↔ i = A ∨ i = N + 1 ∨ i = N + 2) := by
    intro i hi
    constructor
    · intro hvi
      by_contra hne
      push Not at hne
      rcases (live2 i).1 hi with h | h | h
      · rw [v2 i h] at hvi
        rcases (live1 i).1 h with g | g | g
        · subst g; rw [S.v_n0] at hvi; exact vtx_old he hvi
        · exact hne.2.1 g
        · rw [v1o g hne.1] at hvi; exact vtx_old g hvi
      · exact hne.2.2 h
      · subst h
        have e1 := hv2.vertex_next (i := N + 2) ((live2 _).2 (Or.inr (Or.inl rfl)))
        rw [tN2, nx2n, v2 _ (old1 lc), v1o lc cA] at e1
        rw [show N + 2 + 1 = N + 3 from rfl, ← e1] at hvi
        exact vtx_old lc hvi
    · rintro (rfl | rfl | rfl)
      · rw [v2 _ (old1 he)]; exact vA1
      · rw [v2 _ l1N1]; exact S.v_n1
      · rw [v2n]; exact vA1
  have tipA1 : m1.tip A = m.tip A := by
    unfold tip; rw [n1A, ← hb, v1o lb bA]
  have tipA2 : m2.tip A = m.tip A := by
    unfold tip; rw [nx2A, v2 b (old1 lb), v1o lb bA, hb]
  have lnT := hv.next_live _ lT
  have nxT : m.heNext T ≠ A := hdeg
  have vnT : m.heVertex (m.heNext T) = m.heVertex A := by rw [hv.vertex_next lT, twT]
  by_cases hb2 : m.ext T
  · -- boundary
    right
    rw [tw, if_neg (fun h => hint.1 h hb2)]
    refine ⟨m2, 1, rfl, hv2, by rw [if_pos hb2], ?_, ?_, ?_, ?_, tipA2, ?_, ?_, fun h => absurd hb2 h, ?_, ?_,
      nx2n', nx2N, (live2 _).2 (Or.inr (Or.inr rfl)), old2 l1N⟩
    · rw [cV2, S.c_v]
    · rw [cE2, S.c_e]
    · rw [cF2, S.c_f]
    · rw [cB2, S.c_bl]
    · unfold tip
      rw [nx2 _ l1N1, S.next_n1, if_neg nxT]
      have hne : m.heNext T ≠ pA := by
        intro h; have h1 := hv.face_next lT; rw [h, fc] at h1; exact hfaces h1
      rw [if_neg hne, v2 _ (old1 lnT), v1o lnT nxT, vnT]
    · rw [tip2n, v1o lc cA, hc, hb]
    · intro i hi; rw [w2 i hi, if_pos hb2]; simp
    · intro i hi hvi hex
      rcases (w2 i hi).1 hvi with rfl | rfl | rfl
      · rw [nx2A, nx2b]; exact nx2n'
      · exfalso; apply hex
        rw [ext2 _ l1N1]; unfold ext; rw [S.f_n1, nF1]; exact hb2
      · rw [nx2n, nx2c, nx2N]
  · -- interior
    have t2' : m.heNext (m.heNext (m.heNext T)) = T := tri2.resolve_left hb2
    obtain ⟨x, hx⟩ : ∃ x, x = m.heNext T := ⟨_, rfl⟩
    obtain ⟨y, hy⟩ : ∃ y, y = m.heNext x := ⟨_, rfl⟩
    have lx : m.heLive x := by rw [hx]; exact lnT
    have ly : m.heLive y := by rw [hy]; exact hv.next_live _ lx
    have hyT : m.heNext y = T := by rw [hy, hx]; exact t2'
    have fx : m.heFace x = m.heFace T := by rw [hx]; exact hv.face_next lT
    have fy : m.heFace y = m.heFace T := by rw [hy, hv.face_next lx, fx]
    have neA : ∀ {i j}, m.heFace i = m.heFace T → m.heFace j = m.heFace A → i ≠ j := by
      rintro i j h1 h2 rfl; exact hfaces (h2.symm.trans h1)
    have xT : x ≠ T := by rw [hx]; exact hv.deg_two _ lT
    have yx : y ≠ x := by rw [hy]; exact hv.deg_two _ lx
    have yT : y ≠ T := by
      intro h; have h1 := hyT; rw [h] at h1; exact hv.deg_two _ lT h1
    have llx := ltn lx; have lly := ltn ly
    have xA := neA fx rfl; have xc := neA fx fc
    have yA := neA fy rfl; have yc := neA fy fc; have TA := neA (rfl : m.heFace T = _) rfl
    have Tc := neA (rfl : m.heFace T = _) fc
    have n1x : m1.heNext x = y := by rw [S.next_o x (nN lx 0) (nN lx 1) xT xc, hy]
    have n1y : m1.heNext y = T := by rw [S.next_o y (nN ly 0) (nN ly 1) yT yc, hyT]
    have n1N1 : m1.heNext (N + 1) = x := by rw [S.next_n1, hx]
    have nx2N1 : m2.heNext (N + 1) = x := by rw [nx2 _ l1N1, n1N1, if_neg xA, if_neg xc]
    have nx2x : m2.heNext x = y := by rw [nx2 _ (old1 lx), n1x, if_neg yA, if_neg yc]
    have nx2y : m2.heNext y = T := by rw [nx2 _ (old1 ly), n1y, if_neg TA, if_neg Tc]
    rw [tw, if_pos (hint.2 hb2), nx2T, nx2N1, nx2x]
    have l2y := old2 (old1 ly)
    have l2N1 := old2 l1N1
    have f2N1 : m2.heFace (N + 1) = m.heFace T := by
      rw [f2 _ l1N1, S.f_n1]
      · rw [S.f_n1, nF1]; exact Valid.face_lt hb2
      · rw [S.f_n1, hf1 he]; exact fun h => hfaces h.symm
    have f2y : m2.heFace y = m.heFace T := by
      rw [f2 _ (old1 ly), hf1 ly, fy]
      · rw [hf1 ly, fy, nF1]; exact Valid.face_lt hb2
      · rw [hf1 ly, fy, hf1 he]; exact fun h => hfaces h.symm
    have nHe2 : m2.nHeFill = N + 4 := by omega
    rcases C05_connectVertices m2 hv2 (N + 1) y l2N1 l2y (by rw [f2N1, f2y])
      (by rw [f2N1, cFF2, nF1]; exact Nat.lt_succ_of_lt (Valid.face_lt hb2)) (Nn ly 1) (by rw [nx2N1]; exact fun h => yx h.symm)
      (by rw [nx2y]; exact nN lT 1) with ⟨h, lim⟩ | h
    · left; rw [h]
      exact ⟨rfl, lim.mono (by rw [cVF2, S.c_vFill]; omega) (by omega) (by rw [cFF2, nF1, cB2, S.c_bl]; omega)⟩
    right
    obtain ⟨m3, h, hv3, cV3, cE3, cF3, cB3, cH3, cFF3, -, -, -, live3, v3n, tip3n, f3n, f3n', nx3n, nx3n', nx3, v3, vh3,
      f3, f3', ext3⟩ := h
    rw [nHe2] at live3 v3n tip3n f3n f3n' nx3n nx3n' nx3
    rw [h]; simp only
    have l2 : ∀ {i}, m.heLive i → m2.heLive i := fun hi => old2 (old1 hi)
    have l2N2 : m2.heLive (N + 2) := (live2 _).2 (Or.inr (Or.inl rfl))
    have l2N3 : m2.heLive (N + 3) := (live2 _).2 (Or.inr (Or.inr rfl))
    have l2N : m2.heLive N := old2 l1N
    have k : ∀ {i j}, m2.heLive i → m2.heNext i = j → j ≠ N + 1 → j ≠ y → m3.heNext i = j := by
      intro i j hi hj a1 a2; rw [nx3 i hi, hj, if_neg a1, if_neg a2]
    have yb : b ≠ y := fun h => neA fy fb h.symm
    have nx3A : m3.heNext A = b := k (l2 he) nx2A (nN lb 1) yb
    have nx3b : m3.heNext b = N + 3 := k (l2 lb) nx2b (by simp) (Nn ly 3)
    have nx3N3 : m3.heNext (N + 3) = A := k l2N3 nx2n' (nN he 1) (fun h => yA h.symm)
    have nx3N2 : m3.heNext (N + 2) = pA := k l2N2 nx2n (nN lc 1) (fun h => yc h.symm)
    have nx3c : m3.heNext pA = N := k (l2 lc) nx2c (by simp) (Nn ly 0)
    have nx3N : m3.heNext N = N + 2 := k l2N nx2N (by simp) (Nn ly 2)
    have nx3N1 : m3.heNext (N + 1) = x := k l2N1 nx2N1 (nN lx 1) (fun h => yx h.symm)
    have nx3x : m3.heNext x = N + 5 := by rw [nx3 _ (l2 lx), nx2x, if_neg (nN ly 1), if_pos rfl]
    have nx3y : m3.heNext y = T := k (l2 ly) nx2y (nN lT 1) (fun h => yT h.symm)
    have nx3T : m3.heNext T = N + 4 := by rw [nx3 _ (l2 lT), nx2T, if_pos rfl]
    have w3 : ∀ i, m3.heLive i → (m3.heVertex i = m.nVFill ↔ i = A ∨ i = N + 1 ∨ i = N + 2 ∨ i = N + 4) := by
      intro i hi
      rcases (live3 i).1 hi with g | g | g
      · rw [v3 i g, w2 i g]
        have : i ≠ N + 4 := by have := g.1; rw [nHe2] at this; exact this.ne
        tauto
      · subst g
        rw [v3n, v2 _ l1N1, S.v_n1]; simp
      · subst g
        have e1 := hv3.vertex_next (i := N + 4) ((live3 _).2 (Or.inr (Or.inl rfl)))
        rw [tN4, nx3n, v3 _ (l2 ly), v2 _ (old1 ly), v1o ly yA] at e1
        rw [show N + 4 + 1 = N + 5 from rfl, ← e1]
        refine iff_of_false (vtx_old ly) ?_
        rintro (h | h | h | h)
        · exact Nn he 5 h
        · simp at h
        · simp at h
        · simp at h
    refine ⟨m3, 2, rfl, hv3, by rw [if_neg hb2], ?_, ?_, ?_, ?_, ?_, ?_, ?_, ?_, ?_, ?_, nx3N3, nx3N,
      (live3 _).2 (Or.inl l2N3), (live3 _).2 (Or.inl l2N)⟩
    · rw [cV3, cV2, S.c_v]
    · rw [cE3, cE2, S.c_e]
    · rw [cF3, cF2, S.c_f]
    · rw [cB3, cB2, S.c_bl]
    · unfold tip; rw [nx3A, v3 _ (l2 lb), v2 _ (old1 lb), v1o lb bA, hb]
    · unfold tip; rw [nx3N1, v3 _ (l2 lx), v2 _ (old1 lx), v1o lx xA, hx, vnT]
    · unfold tip; rw [nx3N2, v3 _ (l2 lc), v2 _ (old1 lc), v1o lc cA, hc, hb]
    · intro _; rw [tip3n, v2 _ (old1 ly), v1o ly yA, hy, hx]
    · intro i hi; rw [w3 i hi, if_neg hb2]; simp
    · intro i hi hvi hex
      rcases (w3 i hi).1 hvi with rfl | rfl | rfl | rfl
      · rw [nx3A, nx3b, nx3N3]
      · rw [nx3N1, nx3x]; exact nx3n'
      · rw [nx3N2, nx3c, nx3N]
      · rw [nx3n, nx3y, nx3T]

/-- The hypotheses are met by an interior and by a boundary edge. -/
example : square.Valid ∧ (∀ e ∈ [2, 0], square.heLive (2 * e) ∧ square.heFace (2 * e) ≠ square.heFace (2 * e + 1) ∧
      square.heNext (square.heNext (square.heNext (2 * e))) = 2 * e) ∧
    square.heNext (square.heNext (square.heNext (2 * 2 + 1))) = 2 * 2 + 1 ∧ square.ext (2 * 0 + 1) ∧
    (∃ m', square.splitEdgeTriangular 2 = .ok (m', 4) ∧ m'.nF = 4) ∧
    (∃ m', square.splitEdgeTriangular 0 = .ok (m', 0) ∧ m'.nF = 3) :=
  ⟨square_valid, by decide +kernel, by decide +kernel, by decide +kernel, ⟨_, rfl, by decide +kernel⟩,
   ⟨_, rfl, by decide +kernel⟩⟩

/-- **C07 fails** if the same triangle lies on both sides of the edge (one end has degree one): the second
`connectVertices` throws, after the vertex and the first edge have been inserted. -/
theorem C07_splitEdgeTriangular_fails :
    ∃ (m : Mesh) (e : ℕ), m.Valid ∧ m.heLive (2 * e) ∧ m.fIsTriangle (m.heFace (2 * e)) ∧
      m.fIsTriangle (m.heFace (2 * e + 1)) ∧ m.splitEdgeTriangular e = .error .throw ∧
      ∃ m1 m2, m.insertVertexAlongEdge e = .ok (m1, 2 * e) ∧
        m1.connectVertices (2 * e) (m1.heNext (m1.heNext (2 * e))) = .ok (m2, 8) :=
  ⟨pillowFlipped, 2, pillowFlipped_valid, by decide +kernel, by decide +kernel, by decide +kernel, rfl, _, _, rfl, rfl⟩

end GC
