import Verif.MeshCollapseInt

/-!
The boundary case of `collapseEdgeTriangular` (manifold_surface_mesh.cpp:1054-1129).
-/

namespace GC
namespace Mesh

/-- The surroundings of a boundary edge that can be collapsed: `a0 a1 a2` is the triangle at the edge, `b0` the exterior
halfedge between `p` and `n`, `c2 c0 c1` the triangle beyond `a2`. -/
structure Rim (m : Mesh) (a0 a1 a2 b0 c0 c1 c2 n p : ℕ) : Prop where
  la0 : m.heLive a0
  la1 : m.heLive a1
  la2 : m.heLive a2
  lb0 : m.heLive b0
  lc0 : m.heLive c0
  lc1 : m.heLive c1
  lc2 : m.heLive c2
  ln : m.heLive n
  lp : m.heLive p
  na0 : m.heNext a0 = a1
  na1 : m.heNext a1 = a2
  na2 : m.heNext a2 = a0
  nc2 : m.heNext c2 = c0
  nc0 : m.heNext c0 = c1
  nc1 : m.heNext c1 = c2
  nb0 : m.heNext b0 = n
  np : m.heNext p = b0
  tb : twin a0 = b0
  tc : twin a2 = c2
  va1 : m.heVertex a1 = m.heVertex b0
  vc2 : m.heVertex c2 = m.heVertex a0
  vc0 : m.heVertex c0 = m.heVertex a2
  vn : m.heVertex n = m.heVertex a0
  AB : m.heVertex a0 ≠ m.heVertex b0
  CA : m.heVertex a2 ≠ m.heVertex a0
  CB : m.heVertex a2 ≠ m.heVertex b0
  fa1 : m.heFace a1 = m.heFace a0
  fa2 : m.heFace a2 = m.heFace a0
  fc0 : m.heFace c0 = m.heFace c2
  fc1 : m.heFace c1 = m.heFace c2
  fn : m.heFace n = m.heFace b0
  fp : m.heFace p = m.heFace b0
  fAB : m.heFace a0 ≠ m.heFace b0
  fAC : m.heFace a0 ≠ m.heFace c2
  fBC : m.heFace b0 ≠ m.heFace c2
  xa : ¬ m.ext a0
  xb : m.ext b0
  xc : ¬ m.ext c2
  pn : p ≠ n

/-- The result of the collapse of a boundary edge, pointwise. -/
structure RimFin (m m' : Mesh) (a0 a1 a2 b0 c0 c1 c2 n p : ℕ) : Prop where
  nextd : ∀ i, i = a0 ∨ i = b0 ∨ i = a2 ∨ i = c2 → m'.heNext i = INV
  next : ∀ i, ¬ (i = a0 ∨ i = b0 ∨ i = a2 ∨ i = c2) → m'.heNext i =
    if i = a1 then c0 else if i = c1 then a1 else if i = p then n else m.heNext i
  vert : ∀ i, m.heLive i → ¬ (i = a0 ∨ i = b0 ∨ i = a2 ∨ i = c2) → m'.heVertex i =
    if m.heVertex i = m.heVertex a0 then m.heVertex b0 else m.heVertex i
  face : ∀ i, ¬ (i = a0 ∨ i = b0 ∨ i = a2 ∨ i = c2) → m'.heFace i = if i = a1 then m.heFace c2 else m.heFace i
  vh : ∀ v, m'.vHalfedge v = if v = m.heVertex a0 then INV else if m.ext (twin (m.vHalfedge v)) then m.vHalfedge v else
    if v = m.heVertex a2 then c0 else m.vHalfedge v
  fh : ∀ f, m'.fHalfedge f = if f = m.heFace a0 then INV else if f = m.heFace b0 then n else
    if f = m.heFace c2 then c0 else m.fHalfedge f
  c : m'.nHeFill = m.nHeFill ∧ m'.nHeCap = m.nHeCap ∧ m'.nEFill = m.nEFill ∧ m'.nECap = m.nECap ∧ m'.nVFill = m.nVFill ∧
    m'.nVCap = m.nVCap ∧ m'.nFFill = m.nFFill ∧ m'.nFCap = m.nFCap ∧ m'.nBLFill = m.nBLFill ∧ m'.nHe = m.nHe - 4 ∧
    m'.nInt = m.nInt - 3 ∧ m'.nE = m.nE - 2 ∧ m'.nV = m.nV - 1 ∧ m'.nF = m.nF - 1 ∧ m'.nBL = m.nBL

section
variable {m m' : Mesh} {a0 a1 a2 b0 c0 c1 c2 n p : ℕ}

set_option maxHeartbeats 1000000 in
theorem rim_con (hv : m.Valid) (I : Rim m a0 a1 a2 b0 c0 c1 c2 n p) (F : RimFin m m' a0 a1 a2 b0 c0 c1 c2 n p) :
    RemSpec m (m.remMesh c2 a2) c2 a2 ∧ ConSpec (m.remMesh c2 a2) m' a0 b0 := by
  have tc' : twin c2 = a2 := by rw [← I.tc, twin_twin]
  have tb' : twin b0 = a0 := by rw [← I.tb, twin_twin]
  have ext_of : ∀ {i j}, m.heFace i = m.heFace j → ¬ m.ext j → ¬ m.ext i := by
    intro i j h; unfold Mesh.ext; rw [h]; exact id
  have xa2 : ¬ m.ext a2 := ext_of I.fa2 I.xa
  have S1 : RemSpec m (m.remMesh c2 a2) c2 a2 := remMesh_spec hv I.lc2 tc'.symm (by rw [I.fa2]; exact I.fAC.symm) I.xc xa2
  refine ⟨S1, ?_⟩
  obtain ⟨V1, e1, k1, k2, k3⟩ := rem_valid hv S1
  have L1 := S1.live hv
  obtain ⟨q1, q2, q3, q4, q5, q6, q7, q8, q9, q10, q11, q12, q13, q14, q15⟩ := F.c
  obtain ⟨M, hM⟩ : ∃ M, M = m.remMesh c2 a2 := ⟨_, rfl⟩
  have Mv : ∀ i, M.heVertex i = m.heVertex i := by intro i; rw [hM]; rfl
  have Mf : ∀ i, M.heFace i = if m.heFace i = m.heFace a0 then m.heFace c2 else m.heFace i := by
    intro i; rw [hM]; show (if m.heFace i = m.heFace a2 then _ else _) = _; rw [I.fa2]
  have Mx : ∀ i, M.ext i ↔ m.ext i := by
    intro i
    have xa := I.xa; have xc := I.xc
    unfold Mesh.ext at *
    rw [Mf, show M.nFFill = m.nFFill by rw [hM]; rfl]
    by_cases h : m.heFace i = m.heFace a0
    · rw [if_pos h, h]; exact iff_of_false xc xa
    · rw [if_neg h]
  have Mn := S1.next_o
  have Mnd := S1.next_dead
  have MnA := S1.next_A
  have MnB := S1.next_B
  have MvL : ∀ v, M.vLive v ↔ m.vLive v := by
    intro v
    rw [hM]
    unfold vLive; rw [S1.c_vFill]
    by_cases c : m.vLive v ∧ (m.vHalfedge v = c2 ∨ m.vHalfedge v = a2)
    · refine iff_of_true ⟨c.1.1, ?_⟩ c.1
      rcases (S1.vh_e v c.1 c.2).1 with h | h <;> rw [h]
      · exact (hv.live_lt_INV (hv.next_live _ I.lc2)).ne
      · exact (hv.live_lt_INV (hv.next_live _ I.la2)).ne
    · rw [S1.vh_o v c]
  have Mv0 : ∀ v, ¬ m.vLive v → M.vHalfedge v = m.vHalfedge v := by
    intro v h; rw [hM]; exact S1.vh_o v (fun c => h c.1)
  have MfH : ∀ f, M.fHalfedge f = if f = m.heFace a0 then INV else if f = m.heFace c2 then c0 else m.fHalfedge f := by
    intro f; rw [hM, S1.fh, I.fa2, I.nc2]
  have cf : M.nFFill = m.nFFill ∧ M.nFCap = m.nFCap ∧ M.nBLFill = m.nBLFill := by rw [hM]; exact ⟨rfl, rfl, rfl⟩
  have MfL : ∀ f, M.fLive f ↔ m.fLive f ∧ f ≠ m.heFace a0 := by
    intro f
    unfold fLive
    rw [cf.1, cf.2.1, cf.2.2, MfH]
    by_cases c1 : f = m.heFace a0
    · rw [if_pos c1]; exact iff_of_false (fun h => h.2 rfl) (fun h => h.2 c1)
    rw [if_neg c1]
    by_cases c2' : f = m.heFace c2
    · rw [if_pos c2']
      refine iff_of_true ⟨?_, (hv.live_lt_INV I.lc0).ne⟩ ⟨?_, c1⟩
      · have := hv.face_live _ I.lc2; rw [← c2'] at this; exact this.1
      · have := hv.face_live _ I.lc2; rw [← c2'] at this; exact this
    · rw [if_neg c2']; exact ⟨fun h => ⟨h, c1⟩, fun h => h.1⟩
  have j : M.nHeFill = m.nHeFill ∧ M.nHeCap = m.nHeCap ∧ M.nEFill = m.nEFill ∧ M.nECap = m.nECap ∧ M.nVFill = m.nVFill ∧
    M.nVCap = m.nVCap ∧ M.nFFill = m.nFFill ∧ M.nFCap = m.nFCap ∧ M.nBLFill = m.nBLFill ∧ M.nHe = m.nHe - 2 ∧
    M.nInt = m.nInt - 2 ∧ M.nE = m.nE - 1 ∧ M.nV = m.nV ∧ M.nF = m.nF - 1 ∧ M.nBL = m.nBL := by
    rw [hM]; exact ⟨rfl, rfl, rfl, rfl, rfl, rfl, rfl, rfl, rfl, rfl, rfl, rfl, rfl, rfl, rfl⟩
  rw [← hM] at L1 Mn Mnd MnA MnB ⊢
  clear e1 V1 S1 hM
  obtain ⟨j1, j2, j3, j4, j5, j6, j7, j8, j9, j10, j11, j12, j13, j14, j15⟩ := j
  have p1 := hv.deg_two a0 I.la0
  have p2 := hv.deg_two a1 I.la1
  have p3 := hv.deg_two a2 I.la2
  have p4 := hv.deg_two b0 I.lb0
  have p7 := hv.deg_two c0 I.lc0
  have p8 := hv.deg_two c1 I.lc1
  have p9 := hv.deg_two c2 I.lc2
  have p10 := hv.deg_two p I.lp
  rw [I.na0] at p1; rw [I.na1] at p2; rw [I.na2] at p3; rw [I.nb0] at p4
  rw [I.nc0] at p7; rw [I.nc1] at p8; rw [I.nc2] at p9; rw [I.np] at p10
  have bu := hv.bdy_unique
  have bf := hv.bdy_first
  have dt := hv.deg_two
  have vhe := hv.v_he
  have fhe := hv.f_he
  have zi := fun {i} (h : m.heLive i) => (hv.live_lt_INV h).ne
  have vlive := hv.vertex_live
  have flive := hv.face_live
  obtain ⟨la0, la1, la2, lb0, lc0, lc1, lc2, ln, lp, na0, na1, na2, nc2, nc0, nc1, nb0, np, tb, tc, va1, vc2, vc0, vn,
    AB, CA, CB, fa1, fa2, fc0, fc1, fn, fp, fAB, fAC, fBC, xa, xb, xc, pn⟩ := I
  have z1 := zi lc0
  have z2 := zi la1
  have z3 := zi ln
  have nDa1 : ¬ (a1 = a0 ∨ a1 = b0 ∨ a1 = a2 ∨ a1 = c2) := by grind
  have nDc0 : ¬ (c0 = a0 ∨ c0 = b0 ∨ c0 = a2 ∨ c0 = c2) := by grind
  have nDn : ¬ (n = a0 ∨ n = b0 ∨ n = a2 ∨ n = c2) := by grind
  have nDp : ¬ (p = a0 ∨ p = b0 ∨ p = a2 ∨ p = c2) := by grind
  have xD : ∀ i, (i = a0 ∨ i = a2 ∨ i = c2) → ¬ m.ext i := by
    unfold Mesh.ext at *; clear * - xa xc fa2; grind
  have live' : ∀ i, m'.heLive i ↔ m.heLive i ∧ ¬ (i = a0 ∨ i = b0 ∨ i = a2 ∨ i = c2) := by
    intro i
    by_cases h : i = a0 ∨ i = b0 ∨ i = a2 ∨ i = c2
    · refine iff_of_false (fun h' => h'.2 (F.nextd i h)) (fun h' => h'.2 h)
    · have w1 := la1; have w3 := lp; have w4 := lc1
      have en := F.next i h
      unfold heLive at *
      rw [en, q1]
      clear * - w1 w3 w4 z1 z2 z3 h
      split_ifs <;> grind
  have ext' : ∀ i, ¬ (i = a0 ∨ i = b0 ∨ i = a2 ∨ i = c2) → (m'.ext i ↔ m.ext i) := by
    intro i h
    have e := F.face i h
    unfold Mesh.ext at *
    rw [e, q7]
    clear * - xa xc fa1
    grind
  have Ma0 : M.heNext a0 = a1 := by rw [Mn a0 la0] <;> grind
  have Mb0 : M.heNext b0 = n := by rw [Mn b0 lb0] <;> grind
  refine {
    lA := (L1 _).2 ⟨la0, by grind⟩
    hB := tb.symm
    vne := by rw [Mv, Mv]; exact AB
    iA := by rw [Mx]; exact xa
    nAB := by rw [Ma0]; grind
    next_A := F.nextd _ (Or.inl rfl)
    next_B := F.nextd _ (Or.inr (Or.inl rfl))
    next_o := ?_
    next_dead := ?_
    v_o := ?_
    f_o := ?_
    deg := ?_
    bdy := ?_
    vh_A := by rw [Mv, F.vh, if_pos rfl]
    vh_l := ?_
    vh_d := ?_
    vh_b := ?_
    fh_l := ?_
    fh_d := ?_
    c_heFill := by rw [q1, j1]
    c_heCap := by rw [q2, j2]
    c_eFill := by rw [q3, j3]
    c_eCap := by rw [q4, j4]
    c_vFill := by rw [q5, j5]
    c_vCap := by rw [q6, j6]
    c_fFill := by rw [q7, j7]
    c_fCap := by rw [q8, j8]
    c_blFill := by rw [q9, j9]
    c_he := by clear * - q10 j10; omega
    c_int := by
      have : ¬ M.heFace b0 < M.nFFill := by
        have := (Mx b0).2 xb; unfold Mesh.ext at this; exact not_lt.2 this
      rw [if_neg this]; clear * - q11 j11; omega
    c_e := by clear * - q12 j12; omega
    c_v := by clear * - q13 j13; omega
    c_f := by clear * - q14 j14; omega
    c_bl := by clear * - q15 j15; omega }
  · intro i hi h1 h2
    obtain ⟨l0, l1, l2⟩ := (L1 i).1 hi
    rw [F.next i (by grind), Ma0, Mb0, Mn i l0 l1 l2]
    have j1 : m.heNext i = a2 → i = a1 := fun h => hv.next_inj l0 la1 (by rw [h, na1])
    have j4 : m.heNext i = c2 → i = c1 := fun h => hv.next_inj l0 lc1 (by rw [h, nc1])
    have j5 : m.heNext i = a0 → i = a2 := fun h => hv.next_inj l0 la2 (by rw [h, na2])
    have j6 : m.heNext i = b0 → i = p := fun h => hv.next_inj l0 lp (by rw [h, np])
    clear bu bf dt vhe fhe vlive flive Mnd MnA MnB L1 live' ext' Mx MvL Mv0 MfL MfH xD zi Mf Mv F hv Mn
    by_cases e1 : i = a1
    · grind
    by_cases e4 : i = c1
    · grind
    by_cases e2 : i = p
    · grind
    · grind
  · intro i hn
    by_cases h : m.heLive i
    · have : i = c2 ∨ i = a2 := by
        by_contra c
        rw [not_or] at c
        exact hn ((L1 i).2 ⟨h, c.1, c.2⟩)
      rw [F.nextd i (by grind)]
      rcases this with h | h <;> rw [h]
      · exact MnA.symm
      · exact MnB.symm
    · have hx : ¬ (i = a0 ∨ i = b0 ∨ i = a2 ∨ i = c2) := by grind
      rw [F.next i hx, Mnd i h]
      grind
  · intro i hi h1 h2
    obtain ⟨l0, l1, l2⟩ := (L1 i).1 hi
    rw [F.vert i l0 (by grind), Mv, Mv, Mv]
  · intro i hi h1 h2
    obtain ⟨l0, l1, l2⟩ := (L1 i).1 hi
    rw [F.face i (by grind), Mf]
    have mA := hv.tri_mem la0 l0 (by rw [na0, na1, na2])
    clear bu bf dt vhe fhe vlive flive Mnd MnA MnB L1 live' ext' Mx MvL Mv0 MfL MfH xD zi Mf Mv F hv Mn
    grind
  · intro i hi
    obtain ⟨l0, l1⟩ := (live' i).1 hi
    have := dt i l0
    rw [F.next i l1]
    clear bu bf dt vhe fhe vlive flive Mnd MnA MnB L1 live' ext' Mx MvL Mv0 MfL MfH xD zi Mf Mv F hv Mn
    grind
  · intro i j hi hj h1 h2 x1 x2 e1 e2
    rw [Mv, Mv] at e2
    exact h2 (bu j b0 ((L1 j).1 hj).1 lb0 ((Mx j).1 x2) xb e2)
  · intro v hvl hne
    rw [MvL] at hvl
    rw [Mv] at hne
    obtain ⟨h1, h2⟩ := vhe v hvl
    have key : ∀ j, m.heLive j → ¬ (j = a0 ∨ j = b0 ∨ j = a2 ∨ j = c2) → m.heVertex j = v →
        m'.heLive j ∧ m'.heVertex j = v := by
      intro j lj hj vj
      exact ⟨(live' j).2 ⟨lj, hj⟩, by rw [F.vert j lj hj, vj, if_neg hne]⟩
    rw [F.vh, if_neg hne]
    split_ifs with g1 g3
    · refine key _ h1 ?_ h2
      rintro (h | h | h | h)
      · rw [h] at h2; exact hne h2.symm
      · rw [h, tb'] at g1; exact xa g1
      · rw [h, tc] at g1; exact xc g1
      · rw [h, tc'] at g1; exact xa2 g1
    · exact key _ lc0 nDc0 (by rw [vc0, g3])
    · refine key _ h1 ?_ h2
      rintro (h | h | h | h)
      · rw [h] at h2; exact hne h2.symm
      · have := bf b0 lb0 xb; rw [← h, h2] at this; exact g1 this
      · rw [h] at h2; exact g3 h2.symm
      · rw [h, vc2] at h2; exact hne h2.symm
  · intro v hvl
    rw [MvL] at hvl
    rw [F.vh, Mv0 v hvl]
    have ne : ∀ {i}, m.heLive i → v ≠ m.heVertex i := fun li h => hvl (h ▸ vlive _ li)
    rw [if_neg (ne la0), if_neg (ne la2), ite_self]
  · intro i hi xi
    obtain ⟨l0, l1⟩ := (live' i).1 hi
    have x0 := (ext' i l1).1 xi
    have b := bf i l0 x0
    have fin : ∀ v, v ≠ m.heVertex a0 → m.vLive v → m.ext (twin (m.vHalfedge v)) → m'.ext (twin (m'.vHalfedge v)) := by
      intro v hne hvl hx
      obtain ⟨h1, h2⟩ := vhe v hvl
      rw [F.vh, if_neg hne, if_pos hx, ext']
      · exact hx
      · rintro (h | h | h | h)
        · rw [h] at hx; exact xa hx
        · have h' : m.vHalfedge v = a0 := by rw [← tb', ← h, twin_twin]
          rw [h'] at h2; exact hne h2.symm
        · rw [h] at hx; exact xa2 hx
        · rw [h] at hx; exact xc hx
    rw [F.vert i l0 l1]
    by_cases c : m.heVertex i = m.heVertex a0
    · rw [if_pos c]
      exact fin _ AB.symm (vlive _ lb0) (bf b0 lb0 xb)
    · rw [if_neg c]
      exact fin _ c (vlive _ l0) b
  · intro f hf
    obtain ⟨f0, f1⟩ := (MfL f).1 hf
    obtain ⟨h1, h2⟩ := fhe f f0
    have key : ∀ j, m.heLive j → ¬ (j = a0 ∨ j = b0 ∨ j = a2 ∨ j = c2) → m.heFace j = f →
        m'.heLive j ∧ m'.heFace j = f := by
      intro j lj hj fj
      refine ⟨(live' j).2 ⟨lj, hj⟩, ?_⟩
      rw [F.face j hj, if_neg, fj]
      rintro rfl; exact f1 (by rw [← fj, fa1])
    rw [F.fh, if_neg f1]
    split_ifs with g1 g2
    · exact key _ ln nDn (by rw [fn, g1])
    · exact key _ lc0 nDc0 (by rw [fc0, g2])
    · refine key _ h1 ?_ h2
      rintro (h | h | h | h) <;> rw [h] at h2
      · exact f1 h2.symm
      · exact g1 h2.symm
      · exact f1 (by rw [← h2, fa2])
      · exact g2 h2.symm
  · intro f hn
    rw [F.fh, MfH]
    by_cases h : f = m.heFace a0
    · rw [if_pos h, if_pos h]
    · have h2 : ¬ m.fLive f := fun h' => hn ((MfL f).2 ⟨h', h⟩)
      have ne : ∀ {i}, m.heLive i → f ≠ m.heFace i := fun li h' => h2 (h' ▸ flive _ li)
      rw [if_neg h, if_neg h, if_neg (ne lb0)]

theorem rim_of (hv : m.Valid) (tri : m.TriMesh) (la : m.heLive a0) (xa : ¬ m.ext a0) (xb : m.ext (twin a0)) (np : ¬ m.Pinch a0)
    (l2 : m.heNext (m.heNext (twin a0)) ≠ twin a0) (l3 : m.heNext (m.heNext (m.heNext (twin a0))) ≠ twin a0)
    (xc : ¬ m.ext (twin (m.heNext (m.heNext a0)))) :
    ∃ a1 a2 b0 c0 c1 c2 n p, Rim m a0 a1 a2 b0 c0 c1 c2 n p := by
  have lb := hv.twin_live _ la
  have P : ∀ x y, m.heLive x → m.heLive y → m.heVertex x = m.heVertex (twin a0) → m.heVertex y = m.heVertex (twin x) →
      m.heVertex (twin y) = m.heVertex a0 → (x = m.heNext a0 ∧ y = m.heNext (m.heNext a0)) := by
    intro x y h1 h2 h3 h4 h5
    by_contra c
    refine np ⟨x, y, h1, h2, h3, h4, h5, c, ?_⟩
    rintro ⟨e1, e2⟩
    have t1 := hv.twin_live _ h1
    have t2 := hv.twin_live _ h2
    have x1 : m.ext (twin x) := (hv.ext_next t1).1 (by rw [e1]; exact xb)
    have x2 : m.ext (twin y) := (hv.ext_next t2).1 (by rw [e2]; exact x1)
    have ln := hv.next_live _ lb
    have : twin y = m.heNext (twin a0) := by
      refine hv.bdy_unique _ _ t2 ln x2 ((hv.ext_next lb).2 xb) ?_
      rw [h5, hv.vertex_next lb, twin_twin]
    exact l3 (by rw [← this, e2, e1])
  have na2 := tri a0 la xa
  obtain ⟨a1, na0⟩ : ∃ a1, m.heNext a0 = a1 := ⟨_, rfl⟩
  rw [na0] at P na2 xc
  have la1 : m.heLive a1 := na0 ▸ hv.next_live _ la
  obtain ⟨a2, na1⟩ : ∃ a2, m.heNext a1 = a2 := ⟨_, rfl⟩
  rw [na1] at P na2 xc
  have la2 : m.heLive a2 := na1 ▸ hv.next_live _ la1
  obtain ⟨b0, tb⟩ : ∃ b0, twin a0 = b0 := ⟨_, rfl⟩
  rw [tb] at P l2 l3 lb xb
  have tb' : twin b0 = a0 := by rw [← tb, twin_twin]
  obtain ⟨n, nb0⟩ : ∃ n, m.heNext b0 = n := ⟨_, rfl⟩
  rw [nb0] at l2
  have ln : m.heLive n := nb0 ▸ hv.next_live _ lb
  obtain ⟨c2, tc⟩ : ∃ c2, twin a2 = c2 := ⟨_, rfl⟩
  rw [tc] at xc
  have tc' : twin c2 = a2 := by rw [← tc, twin_twin]
  have lc2 : m.heLive c2 := tc ▸ hv.twin_live _ la2
  obtain ⟨c0, nc2⟩ : ∃ c0, m.heNext c2 = c0 := ⟨_, rfl⟩
  have lc0 : m.heLive c0 := nc2 ▸ hv.next_live _ lc2
  obtain ⟨c1, nc0⟩ : ∃ c1, m.heNext c0 = c1 := ⟨_, rfl⟩
  have lc1 : m.heLive c1 := nc0 ▸ hv.next_live _ lc0
  have nc1 : m.heNext c1 = c2 := by rw [← nc0, ← nc2]; exact tri c2 lc2 xc
  obtain ⟨p, -, lp, np'⟩ := hv.prevOrbitFace_ok lb
  have va1 : m.heVertex a1 = m.heVertex b0 := by rw [← na0, hv.vertex_next la, tb]
  have va1' : m.heVertex (twin a1) = m.heVertex a2 := by rw [← hv.vertex_next la1, na1]
  have vc2 : m.heVertex c2 = m.heVertex a0 := by rw [← tc, ← hv.vertex_next la2, na2]
  have vc0 : m.heVertex c0 = m.heVertex a2 := by rw [← nc2, hv.vertex_next lc2, tc']
  have vn : m.heVertex n = m.heVertex a0 := by rw [← nb0, hv.vertex_next lb, tb']
  have fa1 : m.heFace a1 = m.heFace a0 := by rw [← na0, hv.face_next la]
  have fa2 : m.heFace a2 = m.heFace a0 := by rw [← na1, hv.face_next la1, fa1]
  have fc0 : m.heFace c0 = m.heFace c2 := by rw [← nc2, hv.face_next lc2]
  have fc1 : m.heFace c1 = m.heFace c2 := by rw [← nc0, hv.face_next lc0, fc0]
  have fn : m.heFace n = m.heFace b0 := by rw [← nb0, hv.face_next lb]
  have fp : m.heFace p = m.heFace b0 := by rw [← np', hv.face_next lp]
  have ext_ne : ∀ {i j}, m.ext i → ¬ m.ext j → m.heFace i ≠ m.heFace j := by
    intro i j h1 h2 h; unfold Mesh.ext at h1 h2; rw [h] at h1; exact h2 h1
  have fAB : m.heFace a0 ≠ m.heFace b0 := (ext_ne xb xa).symm
  have fBC : m.heFace b0 ≠ m.heFace c2 := ext_ne xb xc
  have selfA : ∀ z, m.heLive z → m.heVertex z = m.heVertex a0 → m.heVertex (twin z) ≠ m.heVertex a0 := by
    intro z lz v1 v2
    have := (P b0 z lb lz rfl (by rw [tb']; exact v1) v2).1
    exact fAB (by rw [this, fa1])
  have selfB : ∀ z, m.heLive z → m.heVertex z = m.heVertex b0 → m.heVertex (twin z) ≠ m.heVertex b0 := by
    intro z lz v1 v2
    have := (P z b0 lz lb v1 v2.symm (by rw [tb'])).2
    exact fAB (by rw [this, fa2])
  have AB : m.heVertex a0 ≠ m.heVertex b0 := fun h => selfA a0 la rfl (by rw [tb]; exact h.symm)
  have CA : m.heVertex a2 ≠ m.heVertex a0 := fun h => selfA a2 la2 h (by rw [tc]; exact vc2)
  have CB : m.heVertex a2 ≠ m.heVertex b0 := fun h => selfB a1 la1 va1 (by rw [va1']; exact h)
  have fAC : m.heFace a0 ≠ m.heFace c2 := by
    intro h
    rcases hv.tri_mem la lc2 (by rw [na0, na1, na2]) h.symm with h | h | h
    · rw [h, tb] at tc'; exact fAB (by rw [tc', fa2])
    · rw [na0] at h; rw [h, va1] at vc2; exact AB vc2.symm
    · rw [na0, na1] at h; rw [h] at vc2; exact CA vc2
  exact ⟨a1, a2, b0, c0, c1, c2, n, p, la, la1, la2, lb, lc0, lc1, lc2, ln, lp, na0, na1, na2, nc2, nc0, nc1, nb0, np', tb, tc,
    va1, vc2, vc0, vn, AB, CA, CB, fa1, fa2, fc0, fc1, fn, fp, fAB, fAC, fBC, xa, xb, xc,
    fun h => l2 (by rw [← h, np'])⟩

theorem rim_fin (I : Rim m a0 a1 a2 b0 c0 c1 c2 n p)
    {outs : List ℕ} (ho : ∀ i, i ∈ outs ↔ m.heLive i ∧ m.heVertex i = m.heVertex a0) :
    RimFin m (((((m.collapseBdyWrites a0 outs p).deleteEdgeBundle (heEdge a0)).deleteEdgeBundle
          (heEdge a2)).deleteVertex (m.heVertex a0)).deleteFace (m.heFace a0)) a0 a1 a2 b0 c0 c1 c2 n p := by
  have n1 : a1 ≠ c1 := by intro h; exact I.fAC (by rw [← I.fa1, h, I.fc1])
  have n2 : a1 ≠ p := by intro h; exact I.fAB (by rw [← I.fa1, h, I.fp])
  have n3 : c1 ≠ p := by intro h; exact I.fBC (by rw [← I.fp, ← h, I.fc1])
  obtain ⟨w, hw⟩ : ∃ w, w = m.collapseBdyWrites a0 outs p := ⟨_, rfl⟩
  have hd : m.collapseBdyWrites a0 outs p = { ({ m with
    heVertex := writeAll m.heVertex outs (m.heVertex b0),
    heNext := upd (upd (upd m.heNext c1 a1) a1 c0) p n,
    heFace := upd m.heFace a1 (m.heFace c0) } : Mesh).setIfInner (m.heVertex c0) c0 with
    fHalfedge := upd (upd (({ m with
    heVertex := writeAll m.heVertex outs (m.heVertex b0),
    heNext := upd (upd (upd m.heNext c1 a1) a1 c0) p n,
    heFace := upd m.heFace a1 (m.heFace c0) } : Mesh).setIfInner (m.heVertex c0) c0).fHalfedge (m.heFace c0) c0) (m.heFace b0) n } := by
    simp only [collapseBdyWrites, I.tb, I.nb0, I.na0, I.na1, I.tc, I.nc2, I.nc0, I.va1]
  have hr := setIfInner_rest ({ m with
    heVertex := writeAll m.heVertex outs (m.heVertex b0),
    heNext := upd (upd (upd m.heNext c1 a1) a1 c0) p n,
    heFace := upd m.heFace a1 (m.heFace c0) } : Mesh) (m.heVertex c0) c0
  have hvh := setIfInner_vh ({ m with
    heVertex := writeAll m.heVertex outs (m.heVertex b0),
    heNext := upd (upd (upd m.heNext c1 a1) a1 c0) p n,
    heFace := upd m.heFace a1 (m.heFace c0) } : Mesh) (m.heVertex c0) c0
  have hvh' : ∀ u, w.vHalfedge u = if u = m.heVertex c0 ∧ ¬ m.nFFill ≤ upd m.heFace a1 (m.heFace c0) (twin (m.vHalfedge (m.heVertex c0)))
      then c0 else m.vHalfedge u := by
    intro u; rw [hw, hd]
    refine (hvh u).trans ?_
    simp only [vIsBoundary_iff]; rfl
  rw [hr] at hd
  rw [hd] at hw
  have wn : ∀ i, w.heNext i = upd (upd (upd m.heNext c1 a1) a1 c0) p n i := by intro i; rw [hw]
  have wv : ∀ i, w.heVertex i = writeAll m.heVertex outs (m.heVertex b0) i := by intro i; rw [hw]
  have wf : ∀ i, w.heFace i = upd m.heFace a1 (m.heFace c0) i := by intro i; rw [hw]
  have wfh : ∀ f, w.fHalfedge f = upd (upd m.fHalfedge (m.heFace c0) c0) (m.heFace b0) n f := by intro f; rw [hw]
  have wc : w.nHeFill = m.nHeFill ∧ w.nHeCap = m.nHeCap ∧ w.nEFill = m.nEFill ∧ w.nECap = m.nECap ∧ w.nVFill = m.nVFill ∧
      w.nVCap = m.nVCap ∧ w.nFFill = m.nFFill ∧ w.nFCap = m.nFCap ∧ w.nBLFill = m.nBLFill ∧ w.nHe = m.nHe ∧
      w.nInt = m.nInt ∧ w.nE = m.nE ∧ w.nV = m.nV ∧ w.nF = m.nF ∧ w.nBL = m.nBL := by
    rw [hw]; exact ⟨rfl, rfl, rfl, rfl, rfl, rfl, rfl, rfl, rfl, rfl, rfl, rfl, rfl, rfl, rfl⟩
  rw [hd, ← hw]
  clear hr hd hw hvh
  obtain ⟨q1, q2, q3, q4, q5, q6, q7, q8, q9, q10, q11, q12, q13, q14, q15⟩ := wc
  have hD : ∀ i, ((i = a2 ∨ i = twin a2) ∨ (i = a0 ∨ i = twin a0)) ↔ (i = a0 ∨ i = b0 ∨ i = a2 ∨ i = c2) := by
    intro i; rw [I.tb, I.tc]; tauto
  have com : ∀ {P Q : Prop} [Decidable P] [Decidable Q] (x y : ℕ),
      (if P then x else if Q then x else y) = if P ∨ Q then x else y := by
    intro P Q _ _ x y; by_cases p : P <;> by_cases q : Q <;> simp [p, q]
  obtain ⟨w1, hw1⟩ : ∃ w1, w1 = (w.deleteEdgeBundle (heEdge a0)).deleteEdgeBundle (heEdge a2) := ⟨_, rfl⟩
  have hN : ∀ i, w1.heNext i = if i = a0 ∨ i = b0 ∨ i = a2 ∨ i = c2 then INV else w.heNext i := by
    intro i; rw [hw1, del_next, del_next, com, if_congr (hD i) rfl rfl]
  have hV : ∀ i, w1.heVertex i = if i = a0 ∨ i = b0 ∨ i = a2 ∨ i = c2 then INV else w.heVertex i := by
    intro i; rw [hw1, del_vertex, del_vertex, com, if_congr (hD i) rfl rfl]
  have hF : ∀ i, w1.heFace i = if i = a0 ∨ i = b0 ∨ i = a2 ∨ i = c2 then INV else w.heFace i := by
    intro i; rw [hw1, del_face, del_face, com, if_congr (hD i) rfl rfl]
  have g1 : m.heFace a0 < w.nFFill := by have := I.xa; unfold Mesh.ext at this; rw [q7]; exact not_le.1 this
  have g2 : w.nFFill ≤ m.heFace b0 := by have := I.xb; unfold Mesh.ext at this; rw [q7]; exact this
  have g3 : m.heFace c2 < w.nFFill := by have := I.xc; unfold Mesh.ext at this; rw [q7]; exact not_le.1 this
  have wl : ∀ i, m.heFace i < w.nFFill → w.heFace i < w.nFFill := by
    intro i hi; rw [wf, upd_apply]; split_ifs
    · rw [I.fc0]; exact g3
    · exact hi
  have na : a2 ≠ a0 := by intro h; exact I.CA (by rw [h])
  have na' : a2 ≠ b0 := by intro h; exact I.fAB (by rw [← I.fa2, h])
  have n3 : c2 ≠ a0 := by intro h; exact I.fAC (by rw [h])
  have n4 : c2 ≠ b0 := by intro h; exact I.fBC (by rw [h])
  have n5 : b0 ≠ a1 := by intro h; exact I.fAB (by rw [h, I.fa1])
  have hI : w1.nInt = m.nInt - 3 := by
    have e1 : (w.deleteEdgeBundle (heEdge a0)).nInt = w.nInt - 1 := by
      rw [del_int _ _ (not_le.2 (wl _ g1)), I.tb, if_neg]
      rw [wf, upd_ne _ _ n5]; exact not_lt.2 g2
    rw [hw1, del_int, I.tc, if_pos, e1, q11]
    · omega
    · rw [del_face, if_neg (by rw [I.tb]; rintro (h | h); exacts [n3 h, n4 h])]
      exact wl _ g3
    · show ¬ w.nFFill ≤ _
      rw [del_face, if_neg (by rw [I.tb]; rintro (h | h); exacts [na h, na' h]), not_le]
      exact wl _ (by rw [I.fa2]; exact g1)
  have k1 : w1.nHe = w.nHe - 1 - 1 - 1 - 1 := by rw [hw1]; rfl
  have k2 : w1.nE = w.nE - 1 - 1 := by rw [hw1]; rfl
  have k3 : w1.vHalfedge = w.vHalfedge := by rw [hw1]; rfl
  have k4 : w1.fHalfedge = w.fHalfedge := by rw [hw1]; rfl
  have r : w1.nHeFill = w.nHeFill ∧ w1.nHeCap = w.nHeCap ∧ w1.nEFill = w.nEFill ∧ w1.nECap = w.nECap ∧
      w1.nVFill = w.nVFill ∧ w1.nVCap = w.nVCap ∧ w1.nFFill = w.nFFill ∧ w1.nFCap = w.nFCap ∧ w1.nBLFill = w.nBLFill ∧
      w1.nV = w.nV ∧ w1.nF = w.nF ∧ w1.nBL = w.nBL := by
    rw [hw1]; exact ⟨rfl, rfl, rfl, rfl, rfl, rfl, rfl, rfl, rfl, rfl, rfl, rfl⟩
  rw [← hw1]
  clear hw1
  refine ⟨?_, ?_, ?_, ?_, ?_, ?_, ?_⟩
  · intro i hi; show w1.heNext i = _; rw [hN, if_pos hi]
  · intro i hi; show w1.heNext i = _; rw [hN, if_neg hi, wn i, upd_apply, upd_apply, upd_apply]
    by_cases h1 : i = a1
    · rw [if_pos h1, if_neg (by rw [h1]; exact n2), if_pos h1]
    by_cases h2 : i = c1
    · rw [if_neg h1, if_neg h1, if_neg (by rw [h2]; assumption), if_pos h2, if_pos h2]
    · rw [if_neg h1, if_neg h1, if_neg h2, if_neg h2]
  · intro i li hi; show w1.heVertex i = _; rw [hV, if_neg hi, wv i, writeAll_apply]
    by_cases h : m.heVertex i = m.heVertex a0
    · rw [if_pos ((ho i).2 ⟨li, h⟩), if_pos h]
    · rw [if_neg (fun h' => h ((ho i).1 h').2), if_neg h]
  · intro i hi; show w1.heFace i = _; rw [hF, if_neg hi, wf i, upd_apply, I.fc0]
  · intro v
    show upd w1.vHalfedge _ INV v = _
    rw [upd_apply, k3]
    by_cases h : v = m.heVertex a0
    · rw [if_pos h, if_pos h]
    rw [if_neg h, if_neg h, hvh']
    have hx : ∀ i, m.nFFill ≤ upd m.heFace a1 (m.heFace c0) i ↔ m.ext i := by
      intro i
      have e1 := I.xa; have e3 := I.xc
      have f1 := I.fa1; have f3 := I.fc0
      unfold Mesh.ext at *
      rw [upd_apply]
      by_cases h : i = a1
      · rw [if_pos h, h, f1, f3]; exact iff_of_false e3 e1
      · rw [if_neg h]
    simp only [hx, I.vc0]
    by_cases e : m.ext (twin (m.vHalfedge v))
    · rw [if_pos e, if_neg]
      rintro ⟨h, h'⟩; rw [h] at e; exact h' e
    · rw [if_neg e]
      exact if_congr ⟨fun h => h.1, fun h => ⟨h, h ▸ e⟩⟩ rfl rfl
  · intro f
    show upd w1.fHalfedge _ INV f = _
    rw [upd_apply, k4, wfh, upd_apply, upd_apply, I.fc0]
  · obtain ⟨r1, r2, r3, r4, r5, r6, r7, r8, r9, r10, r11, r12⟩ := r
    refine ⟨r1.trans q1, r2.trans q2, r3.trans q3, r4.trans q4, r5.trans q5, r6.trans q6, r7.trans q7, r8.trans q8, r9.trans q9,
      ?_, hI, ?_, ?_, ?_, r12.trans q15⟩
    · show w1.nHe = _; rw [k1, q10]; omega
    · show w1.nE = _; rw [k2, q12]; omega
    · show w1.nV - 1 = _; rw [r10, q13]
    · show w1.nF - 1 = _; rw [r11, q14]

theorem bdy_go (hv : m.Valid) (tri : m.TriMesh) {h : ℕ} (lh : m.heLive h) (xh : ¬ m.ext h) (xt : m.ext (twin h))
    (l2 : m.heNext (m.heNext (twin h)) ≠ twin h) :
    ∃ d a0, m.vDegree (m.heVertex h) = .ok d ∧ a0 = (if d = 2 then m.heNext (m.heNext h) else h) ∧
      m.heLive a0 ∧ ¬ m.ext a0 ∧ m.ext (twin a0) ∧
      (((m.heNext (m.heNext (m.heNext (twin h))) = twin h ∨ m.Pinch a0) ∧ m.collapseBdy h = .ok (m, INV)) ∨
      (m.heNext (m.heNext (m.heNext (twin h))) ≠ twin h ∧ ¬ m.Pinch a0 ∧
        ∃ m' a1 a2 b0 c0 c1 c2 n p, Rim m a0 a1 a2 b0 c0 c1 c2 n p ∧ RimFin m m' a0 a1 a2 b0 c0 c1 c2 n p ∧
          m.collapseBdy h = .ok (m', m.heVertex b0))) := by
  have vh := hv.vertex_live _ lh
  obtain ⟨l, -, nd, mem, -, -, dg, -⟩ := C49_vertex_outgoing m hv _ vh
  have lt := hv.twin_live _ lh
  have ln := hv.next_live _ lt
  have xn : m.ext (m.heNext (twin h)) := (hv.ext_next lt).2 xt
  have vn : m.heVertex (m.heNext (twin h)) = m.heVertex h := by rw [hv.vertex_next lt, twin_twin]
  have lh1 := hv.next_live _ lh
  have lh2 := hv.next_live _ lh1
  have nh2 := tri h lh xh
  have xh1 : ¬ m.ext (m.heNext h) := fun x => xh ((hv.ext_next lh).1 x)
  have xh2 : ¬ m.ext (m.heNext (m.heNext h)) := fun x => xh1 ((hv.ext_next lh1).1 x)
  have vh2 : m.heVertex (twin (m.heNext (m.heNext h))) = m.heVertex h := by rw [← hv.vertex_next lh2, nh2]
  -- degree two
  have deg : l.length = 2 ↔ m.ext (twin (m.heNext (m.heNext h))) := by
    have ne : h ≠ m.heNext (twin h) := fun e => xh (e ▸ xn)
    constructor
    · intro e
      by_contra c
      have := length_le_of_sub (l := [h, m.heNext (twin h), twin (m.heNext (m.heNext h))]) (k := l) (by
        have n1 : h ≠ twin (m.heNext (m.heNext h)) := by
          intro e; have : twin h = m.heNext (m.heNext h) := by conv_lhs => rw [e]
                                                               exact twin_twin _
          exact xh2 (this ▸ xt)
        have n2 : m.heNext (twin h) ≠ twin (m.heNext (m.heNext h)) := fun e => c (e ▸ xn)
        simp [ne, n1, n2]) (by
        intro i hi
        rw [mem]
        have : i = h ∨ i = m.heNext (twin h) ∨ i = twin (m.heNext (m.heNext h)) := by simpa using hi
        rcases this with e | e | e <;> rw [e]
        · exact ⟨lh, rfl⟩
        · exact ⟨ln, vn⟩
        · exact ⟨hv.twin_live _ lh2, vh2⟩)
      rw [e] at this
      have : 3 ≤ 2 := this
      omega
    · intro x
      have e : twin (m.heNext (m.heNext h)) = m.heNext (twin h) :=
        hv.bdy_unique _ _ (hv.twin_live _ lh2) ln x xn (by rw [vh2, vn])
      have le := length_le_of_sub (k := [h, m.heNext (twin h)]) nd (by
        intro i hi
        obtain ⟨h1, h2⟩ := (mem i).1 hi
        have := hv.out_closed lh (P := fun i => i = h ∨ i = m.heNext (twin h)) (Or.inl rfl) (by
          rintro z (c | c)
          · rw [c]; exact Or.inr rfl
          · rw [c, ← e, twin_twin, nh2]; exact Or.inl rfl) h1 h2
        simpa using this)
      have ge := length_le_of_sub (l := [h, m.heNext (twin h)]) (k := l) (by simpa using ne) (by
        intro i hi
        rw [mem]
        rcases List.mem_pair.1 hi with c | c <;> rw [c]
        · exact ⟨lh, rfl⟩
        · exact ⟨ln, vn⟩)
      exact le_antisymm le ge
  have l3' : ∀ {b}, m.heLive b → (m.heNext (m.heNext (m.heNext (m.heNext b))) = m.heNext b ↔
      m.heNext (m.heNext (m.heNext b)) = b) := by
    intro b lb
    refine ⟨fun e => hv.next_inj (hv.next_live _ (hv.next_live _ (hv.next_live _ lb))) lb e, fun e => by rw [e]⟩
  obtain ⟨a0, ha0⟩ : ∃ a0, a0 = (if l.length = 2 then m.heNext (m.heNext h) else h) := ⟨_, rfl⟩
  -- the chosen halfedge
  have key : m.heLive a0 ∧ ¬ m.ext a0 ∧ m.ext (twin a0) ∧ (m.heNext (m.heNext (twin a0)) ≠ twin a0) ∧
      (m.heNext (m.heNext (m.heNext (twin a0))) = twin a0 ↔ m.heNext (m.heNext (m.heNext (twin h))) = twin h) ∧
      (m.heNext (m.heNext (m.heNext (twin a0))) ≠ twin a0 → ¬ m.ext (twin (m.heNext (m.heNext a0)))) := by
    by_cases c : l.length = 2
    · rw [if_pos c] at ha0
      have x := deg.1 c
      have e : twin (m.heNext (m.heNext h)) = m.heNext (twin h) :=
        hv.bdy_unique _ _ (hv.twin_live _ lh2) ln x xn (by rw [vh2, vn])
      rw [ha0]
      refine ⟨lh2, xh2, x, ?_, ?_, ?_⟩
      · rw [e]; exact fun e' => l2 (hv.next_inj (hv.next_live _ ln) lt e')
      · rw [e]; exact l3' lt
      · rw [nh2, e]
        intro l3 x1
        refine l3 ((l3' lt).2 ?_)
        have lt1 := hv.twin_live _ lh1
        have e1 : m.heNext (m.heNext (twin h)) = twin (m.heNext h) := by
          refine hv.bdy_unique _ _ (hv.next_live _ ln) lt1 ((hv.ext_next ln).2 xn) x1 ?_
          rw [hv.vertex_next ln, ← e, twin_twin, ← hv.vertex_next lh1]
        rw [e1]
        refine hv.bdy_unique _ _ (hv.next_live _ lt1) lt ((hv.ext_next lt1).2 x1) xt ?_
        rw [hv.vertex_next lt1, twin_twin, hv.vertex_next lh]
    · rw [if_neg c] at ha0
      rw [ha0]
      exact ⟨lh, xh, xt, l2, Iff.rfl, fun _ x => c (deg.2 x)⟩
  obtain ⟨la, xa, xb, m2, m3, m4⟩ := key
  refine ⟨l.length, a0, dg, ha0, la, xa, xb, ?_⟩
  have hrun : m.collapseBdy h = if m.heNext (m.heNext (m.heNext (twin a0))) = twin a0 then .ok (m, INV)
    else match m.isPinch a0 with
      | .error x => .error x
      | .ok true => .ok (m, INV)
      | .ok false => m.collapseBdyGo a0 := by
    unfold collapseBdy; rw [dg, ha0]; rfl
  rw [← m3]
  by_cases c3 : m.heNext (m.heNext (m.heNext (twin a0))) = twin a0
  · left; exact ⟨Or.inl c3, by rw [hrun, if_pos c3]⟩
  rcases isPinch_ok hv la with ⟨p1, p2⟩ | ⟨p1, p2⟩
  · left; exact ⟨Or.inr p2, by rw [hrun, if_neg c3, p1]⟩
  right
  obtain ⟨a1, a2, b0, c0, c1, c2, n, p, I⟩ := rim_of hv tri la xa xb p2 m2 c3 (m4 c3)
  obtain ⟨outs, ho, -, ho2, -⟩ := hv.outgoingHalfedges_ok (hv.vertex_live _ la)
  obtain ⟨inc, hi, -, hi2, -⟩ := C49_vertex_incoming m hv _ (hv.vertex_live _ I.la1)
  have hf : inc.find? (fun h => ¬ m.heIsInterior h) = some p := by
    have int : ∀ i, (¬ m.heIsInterior i) ↔ m.ext i := by
      intro i; unfold heIsInterior faceIsBL Mesh.ext; rw [not_not]
    have hp : p ∈ inc := (hi2 p).2 ⟨I.lp, by rw [I.np, I.va1]⟩
    have xp : m.ext p := (hv.ext_next I.lp).1 (by rw [I.np]; exact I.xb)
    cases hq : inc.find? (fun h => ¬ m.heIsInterior h) with
    | none =>
      have := List.find?_eq_none.1 hq p hp
      simp only [decide_eq_true_eq] at this
      exact absurd ((int p).2 xp) this
    | some q =>
      have hq1 := List.mem_of_find?_eq_some hq
      have hq2 := List.find?_some hq
      simp only [decide_eq_true_eq] at hq2
      obtain ⟨lq, vq⟩ := (hi2 q).1 hq1
      have xq := (int q).1 hq2
      have e : m.heNext q = b0 := by
        refine hv.bdy_unique _ _ (hv.next_live _ lq) I.lb0 ((hv.ext_next lq).2 xq) I.xb ?_
        rw [vq, I.va1]
      rw [hv.next_inj lq I.lp (by rw [e, I.np])]
  refine ⟨fun e => c3 (m3.2 e), p2, _, a1, a2, b0, c0, c1, c2, n, p, I, rim_fin I ho2, ?_⟩
  rw [hrun, if_neg c3, p1]
  dsimp only
  unfold collapseBdyGo
  rw [I.na0]
  dsimp only
  rw [hi]
  dsimp only
  rw [hf]
  dsimp only
  rw [ho, I.na1, I.va1]

end

end Mesh
end GC
