import Verif.LoopSub
import Verif.Props.Insert
import Verif.Props.Connect

/-! # All arrays after `splitEdgeTriangular` -/

namespace GC
open Mesh

/-- The mesh after splitting the edge of `A`, whose other side is `B`; `N` is the first new halfedge. -/
structure SplitAt (m m' : Mesh) (A B N : ℕ) : Prop where
  valid : m'.Valid
  vFill : m'.nVFill = m.nVFill + 1
  heFill : m'.nHeFill = N + if m.ext B then 4 else 6
  fFill : m'.nFFill = m.nFFill + if m.ext B then 1 else 2
  c_v : m'.nV = m.nV + 1
  c_e : m'.nE = m.nE + 1 + if m.ext B then 1 else 2
  c_f : m'.nF = m.nF + if m.ext B then 1 else 2
  c_bl : m'.nBL = m.nBL
  live : ∀ x, m'.heLive x ↔ m.heLive x ∨ (N ≤ x ∧ x < N + 4) ∨ (¬ m.ext B ∧ (x = N + 4 ∨ x = N + 5))
  a1 : m'.heNext A = m.heNext A
  a2 : m'.heNext (m.heNext A) = N + 3
  a3 : m'.heNext (N + 3) = A
  a4 : m'.heNext N = N + 2
  a5 : m'.heNext (N + 2) = m.heNext (m.heNext A)
  a6 : m'.heNext (m.heNext (m.heNext A)) = N
  b1 : m'.heNext (N + 1) = m.heNext B
  b2 : ¬ m.ext B → m'.heNext (m.heNext B) = N + 5
  b3 : ¬ m.ext B → m'.heNext (N + 5) = N + 1
  b4 : ¬ m.ext B → m'.heNext B = N + 4
  b5 : ¬ m.ext B → m'.heNext (N + 4) = m.heNext (m.heNext B)
  b6 : ¬ m.ext B → m'.heNext (m.heNext (m.heNext B)) = B
  bx : m.ext B → m'.heNext B = N + 1
  o : ∀ x, m.heLive x → x ≠ A → x ≠ m.heNext A → x ≠ m.heNext (m.heNext A) → x ≠ B →
    (¬ m.ext B → x ≠ m.heNext B ∧ x ≠ m.heNext (m.heNext B)) → m'.heNext x = m.heNext x
  vA : m'.heVertex A = m.nVFill
  v0 : m'.heVertex N = m.heVertex A
  v1 : m'.heVertex (N + 1) = m.nVFill
  v2 : m'.heVertex (N + 2) = m.nVFill
  v4 : ¬ m.ext B → m'.heVertex (N + 4) = m.nVFill
  vo : ∀ x, m.heLive x → x ≠ A → m'.heVertex x = m.heVertex x
  eo : ∀ x, m.heLive x → (m'.ext x ↔ m.ext x)
  e0 : ¬ m'.ext N
  e1 : m'.ext (N + 1) ↔ m.ext B
  e2 : ¬ m'.ext (N + 2) ∧ ¬ m'.ext (N + 3)
  e4 : ¬ m.ext B → ¬ m'.ext (N + 4) ∧ ¬ m'.ext (N + 5)

set_option maxHeartbeats 1600000 in
/-- What `splitEdgeTriangular` does to the arrays. -/
theorem splitTri_spec (m : Mesh) (hv : m.Valid) (e : ℕ) (he : m.heLive (2 * e))
    (hfaces : m.heFace (2 * e) ≠ m.heFace (2 * e + 1))
    (tri1 : m.heNext (m.heNext (m.heNext (2 * e))) = 2 * e)
    (tri2 : m.ext (2 * e + 1) ∨ m.heNext (m.heNext (m.heNext (2 * e + 1))) = 2 * e + 1) :
    (m.splitEdgeTriangular e = .error .oom ∧ m.nearLimit 3) ∨
    ∃ m', m.splitEdgeTriangular e = .ok (m', 2 * e) ∧ SplitAt m m' (2 * e) (2 * e + 1) m.nHeFill := by
  have tw : twin (2 * e) = 2 * e + 1 := twin_two_mul e
  have nN : ∀ {i}, m.heLive i → ∀ k, i ≠ m.nHeFill + k := fun hi k => by have := hi.1; omega
  have Nn : ∀ {i}, m.heLive i → ∀ k, m.nHeFill + k ≠ i := fun hi k => by have := hi.1; omega
  have tN2 : twin (m.nHeFill + 2) = m.nHeFill + 3 := by
    have := hv.he_fill; rw [show m.nHeFill + 2 = 2 * (m.nEFill + 1) by omega, twin_two_mul]; omega
  have tN4 : twin (m.nHeFill + 4) = m.nHeFill + 5 := by
    have := hv.he_fill; rw [show m.nHeFill + 4 = 2 * (m.nEFill + 2) by omega, twin_two_mul]; omega
  have lT : m.heLive (2 * e + 1) := by rw [← tw]; exact hv.twin_live _ he
  have hdeg : m.heNext (2 * e + 1) ≠ 2 * e := by
    intro h; have := hv.face_next lT; rw [h] at this; exact hfaces this
  have hdeg' : m.heNext (2 * e) ≠ 2 * e + 1 := by
    intro h; have := hv.face_next he; rw [h] at this; exact hfaces this.symm
  have intA : ¬ m.ext (2 * e) := hv.edge_int e he
  -- the triangle tests
  have tri_of : ∀ {i}, m.heLive i → m.heNext (m.heNext (m.heNext i)) = i → m.fIsTriangle (m.heFace i) := by
    intro i hi h3
    have hf := hv.f_he _ (hv.face_live i hi)
    have o : Orb m.heNext i (m.fHalfedge (m.heFace i)) := (hv.face_iff _ _ hi hf.1).1 hf.2.symm
    unfold fIsTriangle
    refine o.induct (fun z => z = m.heNext (m.heNext (m.heNext z))) h3.symm ?_
    intro z hz; rw [← hz]
  have t1 : m.fIsTriangle (m.heFace (eHalfedge e)) := tri_of he tri1
  have hbd : m.eIsBoundary e ↔ m.ext (2 * e + 1) := by
    unfold eIsBoundary heIsInterior faceIsBL ext eHalfedge; rw [not_not, tw]
  have t2 : m.eIsBoundary e ∨ m.fIsTriangle (m.heFace (twin (eHalfedge e))) := by
    rw [hbd]
    rcases tri2 with h | h
    · exact Or.inl h
    · right; unfold eHalfedge; rw [tw]; exact tri_of lT h
  unfold splitEdgeTriangular
  rw [if_neg (not_not.2 t1), if_neg (not_not.2 t2)]
  rcases ivae_spec hv (e := e) he (by unfold eHalfedge; rw [tw]; exact hdeg) with ⟨h, lim⟩ | ⟨m1, pA, h, S⟩
  · left; rw [h]; exact ⟨rfl, lim.mono (by omega) (by omega) (by omega)⟩
  rw [h]; simp only
  have hv1 := ivae_valid hv S
  have live1 := ivae_live hv S
  unfold eHalfedge at S
  rw [tw] at S
  rw [show eHalfedge e = 2 * e from rfl]
  set N := m.nHeFill with hN
  have hAT : 2 * e ≠ 2 * e + 1 := by omega
  generalize 2 * e + 1 = T at *
  generalize 2 * e = A at *
  have twT : twin T = A := by rw [← tw, twin_twin]
  have ltn : ∀ {i}, m.heLive i → i < N := fun hi => hi.1
  have old1 : ∀ {i}, m.heLive i → m1.heLive i := fun hi => (live1 _).2 (Or.inr (Or.inr hi))
  -- names in the original mesh
  obtain ⟨b, hb⟩ : ∃ b, b = m.heNext A := ⟨_, rfl⟩
  obtain ⟨c, hc⟩ : ∃ c, c = m.heNext b := ⟨_, rfl⟩
  have lb : m.heLive b := by rw [hb]; exact hv.next_live _ he
  have lc : m.heLive c := by rw [hc]; exact hv.next_live _ lb
  have hcA : m.heNext c = A := by rw [hc, hb]; exact tri1
  have fb : m.heFace b = m.heFace A := by rw [hb]; exact hv.face_next he
  have fc : m.heFace c = m.heFace A := by rw [hc, hv.face_next lb, fb]
  have pAc : pA = c := hv.next_inj S.lp lc (by rw [S.np, hcA])
  subst pAc
  have AT : A ≠ T := hAT
  have neT : ∀ {i}, m.heFace i = m.heFace A → i ≠ T := by rintro i h rfl; exact hfaces h.symm
  have bT := neT fb
  have cT := neT fc
  have bA : b ≠ A := by rw [hb]; exact hv.deg_two _ he
  have cb : pA ≠ b := by rw [hc]; exact hv.deg_two _ lb
  have cA : pA ≠ A := by
    intro h; have h1 := hcA; rw [h] at h1; exact hv.deg_two _ he h1
  -- names of the slots
  have lA := ltn he; have llT := ltn lT; have llb := ltn lb; have llc := ltn lc
  have n1A : m1.heNext A = b := by rw [S.next_o A (nN he 0) (nN he 1) AT (fun h => cA h.symm), hb]
  have n1b : m1.heNext b = pA := by rw [S.next_o b (nN lb 0) (nN lb 1) bT (fun h => cb h.symm), hc]
  have n1c : m1.heNext pA = N := S.next_p
  have n1N : m1.heNext N = A := S.next_n0
  have n1T : m1.heNext T = N + 1 := S.next_B
  have hf1 : ∀ {i}, m.heLive i → m1.heFace i = m.heFace i := fun {i} hi =>
    S.f_o i (nN hi 0) (nN hi 1)
  have nF1 : m1.nFFill = m.nFFill := S.c_fFill
  have nHe1 : m1.nHeFill = N + 2 := S.c_heFill
  rw [n1A, n1b]
  rcases C05_connectVertices m1 hv1 A pA (old1 he) (old1 lc) (by rw [hf1 he, hf1 lc, fc])
    (by rw [hf1 he, nF1]; exact Valid.face_lt intA) (fun h => cA h.symm) (by rw [n1A]; exact fun h => cb h.symm)
    (by rw [n1c]; exact Nn he 0) with ⟨h, lim⟩ | h
  · left; rw [h]
    exact ⟨rfl, lim.mono (by rw [S.c_vFill]; omega) (by omega) (by rw [nF1, S.c_bl]; omega)⟩
  obtain ⟨m2, h, hv2, cV2, cE2, cF2, cB2, cH2, cFF2, cHF2, cVF2, -, live2, v2n, tip2n, f2n, f2n', nx2n, nx2n', nx2, v2, vh2,
    f2, f2', ext2⟩ := h
  rw [h]; simp only
  rw [nHe1] at live2 v2n tip2n f2n f2n' nx2n nx2n' nx2
  have l1N : m1.heLive N := (live1 _).2 (Or.inl rfl)
  have l1N1 : m1.heLive (N + 1) := (live1 _).2 (Or.inr (Or.inl rfl))
  have nx2A : m2.heNext A = b := by
    rw [nx2 A (old1 he), n1A, if_neg bA, if_neg (fun h => cb h.symm)]
  have nx2b : m2.heNext b = N + 3 := by
    rw [nx2 b (old1 lb), n1b, if_neg cA, if_pos rfl]
  have nx2c : m2.heNext pA = N := by
    rw [nx2 pA (old1 lc), n1c, if_neg (show N ≠ A from Nn he 0), if_neg (show N ≠ pA from Nn lc 0)]
  have nx2N : m2.heNext N = N + 2 := by
    rw [nx2 N l1N, n1N, if_pos rfl]
  have nx2T : m2.heNext T = N + 1 := by
    rw [nx2 T (old1 lT), n1T, if_neg (Nn he 1), if_neg (Nn lc 1)]
  have extT2 : m2.ext T ↔ m.ext T := by
    rw [ext2 T (old1 lT)]; unfold ext; rw [hf1 lT, nF1]
  have hint : m2.heIsInterior T ↔ ¬ m.ext T := by
    unfold heIsInterior faceIsBL; rw [← extT2]; rfl
  have old2 : ∀ {i}, m1.heLive i → m2.heLive i := fun hi => (live2 _).2 (Or.inl hi)
  have vA1 : m1.heVertex A = m.nVFill := S.v_A
  have vtx_old : ∀ {i}, m.heLive i → m.heVertex i ≠ m.nVFill := fun hi => ne_of_lt (hv.vertex_live _ hi).1
  have v1o : ∀ {i}, m.heLive i → i ≠ A → m1.heVertex i = m.heVertex i := fun {i} hi hne =>
    S.v_o i (nN hi 0) (nN hi 1) hne
  have lnT := hv.next_live _ lT
  have nxT : m.heNext T ≠ A := hdeg
  have vnT : m.heVertex (m.heNext T) = m.heVertex A := by rw [hv.vertex_next lT, twT]
  have h1o : ∀ {x}, m.heLive x → x ≠ pA → x ≠ T → m1.heNext x = m.heNext x := fun {x} hx h2 h3 =>
    S.next_o x (nN hx 0) (nN hx 1) h3 h2
  have h2o : ∀ {x}, m.heLive x → x ≠ b → x ≠ pA → x ≠ T → m2.heNext x = m.heNext x := fun {x} hx h1 h2 h3 => by
    rw [nx2 x (old1 hx), h1o hx h2 h3, if_neg, if_neg]
    · exact fun h => h1 (hv.next_inj hx lb (h.trans hc))
    · exact fun h => h2 (hv.next_inj hx lc (h.trans hcA.symm))
  have v2o : ∀ {x}, m.heLive x → x ≠ A → m2.heVertex x = m.heVertex x := fun {x} hx h => by rw [v2 x (old1 hx), v1o hx h]
  have eo1 : ∀ {x}, m.heLive x → (m1.ext x ↔ m.ext x) := fun {x} hx => by unfold ext; rw [hf1 hx, nF1]
  have eo2 : ∀ {x}, m.heLive x → (m2.ext x ↔ m.ext x) := fun {x} hx => by rw [ext2 x (old1 hx), eo1 hx]
  have e20 : ¬ m2.ext N := by
    rw [ext2 _ l1N]; unfold ext; rw [S.f_n0, nF1]; exact intA
  have e21 : m2.ext (N + 1) ↔ m.ext T := by rw [ext2 _ l1N1]; unfold ext; rw [S.f_n1, nF1]
  have e22 : ¬ m2.ext (N + 2) ∧ ¬ m2.ext (N + 3) := by
    have := Valid.face_lt intA
    constructor
    · unfold ext; rw [f2n, cFF2, hf1 he, nF1]; omega
    · unfold ext; rw [show N + 3 = N + 2 + 1 from rfl, f2n', cFF2]; omega
  have live2' : ∀ x, m2.heLive x ↔ m.heLive x ∨ (N ≤ x ∧ x < N + 4) := fun x => by
    rw [live2, live1]
    constructor
    · rintro ((h | h | h) | h | h)
      · right; omega
      · right; omega
      · exact .inl h
      · right; omega
      · right; omega
    · rintro (h | h)
      · exact .inl (.inr (.inr h))
      · by_cases c0 : x = N
        · exact .inl (.inl c0)
        by_cases c1 : x = N + 1
        · exact .inl (.inr (.inl c1))
        by_cases c2 : x = N + 2
        · exact .inr (.inl c2)
        · exact .inr (.inr (by omega))
  by_cases hb2 : m.ext T
  · -- boundary
    right
    rw [tw, if_neg (fun h => hint.1 h hb2)]
    refine ⟨m2, rfl, ?_⟩
    have k : ¬ ¬ m.ext T := not_not.2 hb2
    exact {
      valid := hv2, vFill := by rw [cVF2, S.c_vFill], heFill := by rw [if_pos hb2, cHF2, nHe1]
      fFill := by rw [if_pos hb2, cFF2, nF1], c_v := by rw [cV2, S.c_v], c_e := by rw [if_pos hb2, cE2, S.c_e]
      c_f := by rw [if_pos hb2, cF2, S.c_f], c_bl := by rw [cB2, S.c_bl]
      live := fun x => by rw [live2']; exact ⟨fun h => h.elim .inl (fun h => .inr (.inl h)), fun h => h.elim .inl (fun h => h.elim .inr (fun h => absurd h.1 k))⟩
      a1 := by rw [nx2A, hb]
      a2 := by rw [← hb]; exact nx2b
      a3 := nx2n', a4 := nx2N
      a5 := by rw [← hb, ← hc]; exact nx2n
      a6 := by rw [← hb, ← hc]; exact nx2c
      b1 := by
        rw [nx2 _ l1N1, S.next_n1, if_neg nxT, if_neg]
        intro h; have h1 := hv.face_next lT; rw [h, fc] at h1; exact hfaces h1
      b2 := fun h => absurd h k, b3 := fun h => absurd h k, b4 := fun h => absurd h k, b5 := fun h => absurd h k
      b6 := fun h => absurd h k, bx := fun _ => nx2T
      o := fun x hx h1 h2 h3 h4 _ => h2o hx (by rwa [hb]) (by rw [hc, hb]; exact h3) h4
      vA := by rw [v2 _ (old1 he)]; exact vA1
      v0 := by rw [v2 _ l1N, S.v_n0]
      v1 := by rw [v2 _ l1N1, S.v_n1]
      v2 := by rw [v2n]; exact vA1
      v4 := fun h => absurd h k
      vo := fun x hx h => v2o hx h, eo := fun x hx => eo2 hx, e0 := e20, e1 := e21, e2 := e22, e4 := fun h => absurd h k }
  · -- interior
    have t2' : m.heNext (m.heNext (m.heNext T)) = T := tri2.resolve_left hb2
    obtain ⟨x, hx⟩ : ∃ x, x = m.heNext T := ⟨_, rfl⟩
    obtain ⟨y, hy⟩ : ∃ y, y = m.heNext x := ⟨_, rfl⟩
    have lx : m.heLive x := by rw [hx]; exact lnT
    have ly : m.heLive y := by rw [hy]; exact hv.next_live _ lx
    have hyT : m.heNext y = T := by rw [hy, hx]; exact t2'
    have fx : m.heFace x = m.heFace T := by rw [hx]; exact hv.face_next lT
    have fy : m.heFace y = m.heFace T := by rw [hy, hv.face_next lx, fx]
    have neA : ∀ {i j}, m.heFace i = m.heFace T → m.heFace j = m.heFace A → i ≠ j := by
      rintro i j h1 h2 rfl; exact hfaces (h2.symm.trans h1)
    have xT : x ≠ T := by rw [hx]; exact hv.deg_two _ lT
    have yx : y ≠ x := by rw [hy]; exact hv.deg_two _ lx
    have yT : y ≠ T := by
      intro h; have h1 := hyT; rw [h] at h1; exact hv.deg_two _ lT h1
    have llx := ltn lx; have lly := ltn ly
    have xA := neA fx rfl; have xc := neA fx fc
    have yA := neA fy rfl; have yc := neA fy fc; have TA := neA (rfl : m.heFace T = _) rfl
    have Tc := neA (rfl : m.heFace T = _) fc
    have n1x : m1.heNext x = y := by rw [S.next_o x (nN lx 0) (nN lx 1) xT xc, hy]
    have n1y : m1.heNext y = T := by rw [S.next_o y (nN ly 0) (nN ly 1) yT yc, hyT]
    have n1N1 : m1.heNext (N + 1) = x := by rw [S.next_n1, hx]
    have nx2N1 : m2.heNext (N + 1) = x := by rw [nx2 _ l1N1, n1N1, if_neg xA, if_neg xc]
    have nx2x : m2.heNext x = y := by rw [nx2 _ (old1 lx), n1x, if_neg yA, if_neg yc]
    have nx2y : m2.heNext y = T := by rw [nx2 _ (old1 ly), n1y, if_neg TA, if_neg Tc]
    rw [tw, if_pos (hint.2 hb2), nx2T, nx2N1, nx2x]
    have l2y := old2 (old1 ly)
    have l2N1 := old2 l1N1
    have f2N1 : m2.heFace (N + 1) = m.heFace T := by
      rw [f2 _ l1N1, S.f_n1]
      · rw [S.f_n1, nF1]; exact Valid.face_lt hb2
      · rw [S.f_n1, hf1 he]; exact fun h => hfaces h.symm
    have f2y : m2.heFace y = m.heFace T := by
      rw [f2 _ (old1 ly), hf1 ly, fy]
      · rw [hf1 ly, fy, nF1]; exact Valid.face_lt hb2
      · rw [hf1 ly, fy, hf1 he]; exact fun h => hfaces h.symm
    have nHe2 : m2.nHeFill = N + 4 := by omega
    rcases C05_connectVertices m2 hv2 (N + 1) y l2N1 l2y (by rw [f2N1, f2y])
      (by rw [f2N1, cFF2, nF1]; exact Nat.lt_succ_of_lt (Valid.face_lt hb2)) (Nn ly 1) (by rw [nx2N1]; exact fun h => yx h.symm)
      (by rw [nx2y]; exact nN lT 1) with ⟨h, lim⟩ | h
    · left; rw [h]
      exact ⟨rfl, lim.mono (by rw [cVF2, S.c_vFill]; omega) (by omega) (by rw [cFF2, nF1, cB2, S.c_bl]; omega)⟩
    right
    obtain ⟨m3, h, hv3, cV3, cE3, cF3, cB3, cH3, cFF3, cHF3, cVF3, -, live3, v3n, tip3n, f3n, f3n', nx3n, nx3n', nx3, v3, vh3,
      f3, f3', ext3⟩ := h
    rw [nHe2] at live3 v3n tip3n f3n f3n' nx3n nx3n' nx3
    rw [h]; simp only
    have l2 : ∀ {i}, m.heLive i → m2.heLive i := fun hi => old2 (old1 hi)
    have l2N2 : m2.heLive (N + 2) := (live2 _).2 (Or.inr (Or.inl rfl))
    have l2N3 : m2.heLive (N + 3) := (live2 _).2 (Or.inr (Or.inr rfl))
    have l2N : m2.heLive N := old2 l1N
    have k : ∀ {i j}, m2.heLive i → m2.heNext i = j → j ≠ N + 1 → j ≠ y → m3.heNext i = j := by
      intro i j hi hj a1 a2; rw [nx3 i hi, hj, if_neg a1, if_neg a2]
    have yb : b ≠ y := fun h => neA fy fb h.symm
    have nx3A : m3.heNext A = b := k (l2 he) nx2A (nN lb 1) yb
    have nx3b : m3.heNext b = N + 3 := k (l2 lb) nx2b (by simp) (Nn ly 3)
    have nx3N3 : m3.heNext (N + 3) = A := k l2N3 nx2n' (nN he 1) (fun h => yA h.symm)
    have nx3N2 : m3.heNext (N + 2) = pA := k l2N2 nx2n (nN lc 1) (fun h => yc h.symm)
    have nx3c : m3.heNext pA = N := k (l2 lc) nx2c (by simp) (Nn ly 0)
    have nx3N : m3.heNext N = N + 2 := k l2N nx2N (by simp) (Nn ly 2)
    have nx3N1 : m3.heNext (N + 1) = x := k l2N1 nx2N1 (nN lx 1) (fun h => yx h.symm)
    have nx3x : m3.heNext x = N + 5 := by rw [nx3 _ (l2 lx), nx2x, if_neg (nN ly 1), if_pos rfl]
    have nx3y : m3.heNext y = T := k (l2 ly) nx2y (nN lT 1) (fun h => yT h.symm)
    have nx3T : m3.heNext T = N + 4 := by rw [nx3 _ (l2 lT), nx2T, if_pos rfl]
    have hf2N1 : m2.heFace (N + 1) < m2.nFFill := by
      have := Valid.face_lt hb2; rw [f2N1, cFF2, nF1]; omega
    refine ⟨m3, rfl, ?_⟩
    exact {
      valid := hv3, vFill := by rw [cVF3, cVF2, S.c_vFill], heFill := by rw [if_neg hb2, cHF3, nHe2]
      fFill := by rw [if_neg hb2, cFF3, cFF2, nF1], c_v := by rw [cV3, cV2, S.c_v], c_e := by rw [if_neg hb2, cE3, cE2, S.c_e]
      c_f := by rw [if_neg hb2, cF3, cF2, S.c_f], c_bl := by rw [cB3, cB2, S.c_bl]
      live := fun x => by
        rw [live3, live2']
        exact ⟨fun h => h.elim (fun h => h.elim .inl (fun h => .inr (.inl h))) (fun h => .inr (.inr ⟨hb2, h⟩)),
          fun h => h.elim (fun h => .inl (.inl h)) (fun h => h.elim (fun h => .inl (.inr h)) (fun h => .inr h.2))⟩
      a1 := by rw [nx3A, hb]
      a2 := by rw [← hb]; exact nx3b
      a3 := nx3N3, a4 := nx3N
      a5 := by rw [← hb, ← hc]; exact nx3N2
      a6 := by rw [← hb, ← hc]; exact nx3c
      b1 := by rw [← hx]; exact nx3N1
      b2 := fun _ => by rw [← hx]; exact nx3x
      b3 := fun _ => nx3n', b4 := fun _ => nx3T
      b5 := fun _ => by rw [← hx, ← hy]; exact nx3n
      b6 := fun _ => by rw [← hx, ← hy]; exact nx3y
      bx := fun h => absurd h hb2
      o := fun z hz h1 h2 h3 h4 h5 => by
        obtain ⟨h6, h7⟩ := h5 hb2
        have e := h2o hz (by rwa [hb]) (by rw [hc, hb]; exact h3) h4
        refine k (l2 hz) e ?_ ?_
        · exact nN (hv.next_live _ hz) 1
        · exact fun h => h6 ((hv.next_inj hz lx (h.trans hy)).trans hx)
      vA := by rw [v3 _ (l2 he), v2 _ (old1 he)]; exact vA1
      v0 := by rw [v3 _ l2N, v2 _ l1N, S.v_n0]
      v1 := by rw [v3 _ l2N1, v2 _ l1N1, S.v_n1]
      v2 := by rw [v3 _ l2N2, v2n]; exact vA1
      v4 := fun _ => by rw [v3n, v2 _ l1N1, S.v_n1]
      vo := fun x hx h => by rw [v3 _ (l2 hx)]; exact v2o hx h
      eo := fun x hx => by rw [ext3 _ (l2 hx)]; exact eo2 hx
      e0 := by rw [ext3 _ l2N]; exact e20
      e1 := by rw [ext3 _ l2N1]; exact e21
      e2 := by rw [ext3 _ l2N2, ext3 _ l2N3]; exact e22
      e4 := fun _ => by
        constructor
        · unfold ext; rw [f3n, cFF3]; omega
        · unfold ext; rw [show N + 5 = N + 4 + 1 from rfl, f3n', cFF3]; omega }

end GC
