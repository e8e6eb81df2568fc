import Verif.MeshCollapseValid

/-!
The collapse of an interior edge whose result is known pointwise is an edge contraction, and the writes of
`collapseEdgeTriangular` (manifold_surface_mesh.cpp:1040-1268) give that result.
-/

namespace GC
namespace Mesh

section
variable {m : Mesh} {a0 a1 a2 b0 b1 b2 c0 c1 c2 d0 d1 d2 : ℕ}

/-- The result of the collapse of an interior edge, pointwise. -/
structure Fin (m m' : Mesh) (a0 a1 a2 b0 b1 b2 c0 c1 c2 d0 d1 d2 : ℕ) : Prop where
  nextd : ∀ i, i = a0 ∨ i = b0 ∨ i = a2 ∨ i = c2 ∨ i = b1 ∨ i = d1 → m'.heNext i = INV
  next : ∀ i, ¬ (i = a0 ∨ i = b0 ∨ i = a2 ∨ i = c2 ∨ i = b1 ∨ i = d1) → m'.heNext i =
    if i = a1 then c0 else if i = b2 then (if c1 = d1 then a1 else d2) else if i = d0 then b2 else
      if i = c1 then a1 else m.heNext i
  vert : ∀ i, m.heLive i → ¬ (i = a0 ∨ i = b0 ∨ i = a2 ∨ i = c2 ∨ i = b1 ∨ i = d1) → m'.heVertex i =
    if m.heVertex i = m.heVertex a0 then m.heVertex b0 else m.heVertex i
  face : ∀ i, ¬ (i = a0 ∨ i = b0 ∨ i = a2 ∨ i = c2 ∨ i = b1 ∨ i = d1) → m'.heFace i =
    if i = a1 then m.heFace c2 else if i = b2 then m.heFace d1 else m.heFace i
  vh : ∀ v, m'.vHalfedge v = if v = m.heVertex a0 then INV else if m.ext (twin (m.vHalfedge v)) then m.vHalfedge v else
    if v = m.heVertex b2 then b2 else if v = m.heVertex a2 then c0 else if v = m.heVertex b0 then a1 else m.vHalfedge v
  fh : ∀ f, m'.fHalfedge f = if f = m.heFace a0 ∨ f = m.heFace b0 then INV else if f = m.heFace d1 then d0 else
    if f = m.heFace c2 then c0 else m.fHalfedge f
  c : m'.nHeFill = m.nHeFill ∧ m'.nHeCap = m.nHeCap ∧ m'.nEFill = m.nEFill ∧ m'.nECap = m.nECap ∧ m'.nVFill = m.nVFill ∧
    m'.nVCap = m.nVCap ∧ m'.nFFill = m.nFFill ∧ m'.nFCap = m.nFCap ∧ m'.nBLFill = m.nBLFill ∧ m'.nHe = m.nHe - 6 ∧
    m'.nInt = m.nInt - 6 ∧ m'.nE = m.nE - 3 ∧ m'.nV = m.nV - 1 ∧ m'.nF = m.nF - 2 ∧ m'.nBL = m.nBL

set_option maxHeartbeats 1000000 in
theorem fin_con (hv : m.Valid) (I : Inner m a0 a1 a2 b0 b1 b2 c0 c1 c2 d0 d1 d2) (hc : c1 = d1 ∨ m.heFace c2 ≠ m.heFace d1)
    {M m' : Mesh} (J : Inner2 m M a0 a2 b0 b1 b2 c0 c1 c2 d1 d2) (F : Fin m m' a0 a1 a2 b0 b1 b2 c0 c1 c2 d0 d1 d2) :
    ConSpec M m' a0 b0 := by
  obtain ⟨k1, k2, k3, k4, k5, k6, k7, k8, k9, k10, k11, k12, k13, k14, k15, k16⟩ := J.c
  obtain ⟨q1, q2, q3, q4, q5, q6, q7, q8, q9, q10, q11, q12, q13, q14, q15⟩ := F.c
  have tc' : twin c2 = a2 := by rw [← I.tc, twin_twin]
  have td' : twin d1 = b1 := by rw [← I.td, twin_twin]
  have tb' : twin b0 = a0 := by rw [← I.tb, twin_twin]
  have dc : c1 = d1 → d0 = c0 := fun h => hv.next_inj I.ld0 I.lc0 (by rw [I.nd0, I.nc0, h])
  have dc2 : c1 = d1 → d2 = c2 := fun h => by rw [← I.nd1, ← h, I.nc1]
  have fcd : c1 = d1 → m.heFace d1 = m.heFace c2 := fun h => by rw [← h, I.fc1]
  have p1 := hv.deg_two a0 I.la0
  have p2 := hv.deg_two a1 I.la1
  have p3 := hv.deg_two a2 I.la2
  have p4 := hv.deg_two b0 I.lb0
  have p5 := hv.deg_two b1 I.lb1
  have p6 := hv.deg_two b2 I.lb2
  have p7 := hv.deg_two c0 I.lc0
  have p8 := hv.deg_two c1 I.lc1
  have p9 := hv.deg_two c2 I.lc2
  have p10 := hv.deg_two d0 I.ld0
  have p11 := hv.deg_two d1 I.ld1
  have p12 := hv.deg_two d2 I.ld2
  rw [I.na0] at p1; rw [I.na1] at p2; rw [I.na2] at p3; rw [I.nb0] at p4; rw [I.nb1] at p5; rw [I.nb2] at p6
  rw [I.nc0] at p7; rw [I.nc1] at p8; rw [I.nc2] at p9; rw [I.nd0] at p10; rw [I.nd1] at p11; rw [I.nd2] at p12
  have c0d1 : c0 ≠ d1 := by
    intro h
    have e1 := I.nd1; rw [← h, I.nc0] at e1
    have e2 : m.heVertex (twin d2) = m.heVertex a0 := by rw [← hv.vertex_next I.ld2, ← e1, I.nc1, I.vc2]
    exact I.selfA d2 I.ld2 I.vd2 e2
  obtain ⟨la0, la1, la2, lb0, lb1, lb2, lc0, lc1, lc2, ld0, ld1, ld2, na0, na1, na2,
    nb0, nb1, nb2, nc2, nc0, nc1, nd1, nd2, nd0, tb, tc, td, va1, vb1, vc2, vc0, vd1, vd2, AB, CA, CB, DA, DB, fa1, fa2, fb1, fb2,
    fc0, fc1, fd2, fd0, fAB, fAC, fAD, fBC, fBD, xa, xb, xc, xd, inA, selfA⟩ := I
  have nDa1 : ¬ (a1 = a0 ∨ a1 = b0 ∨ a1 = a2 ∨ a1 = c2 ∨ a1 = b1 ∨ a1 = d1) := by grind
  have nDb2 : ¬ (b2 = a0 ∨ b2 = b0 ∨ b2 = a2 ∨ b2 = c2 ∨ b2 = b1 ∨ b2 = d1) := by grind
  have nDc0 : ¬ (c0 = a0 ∨ c0 = b0 ∨ c0 = a2 ∨ c0 = c2 ∨ c0 = b1 ∨ c0 = d1) := by grind
  have nDd0 : ¬ (d0 = a0 ∨ d0 = b0 ∨ d0 = a2 ∨ d0 = c2 ∨ d0 = b1 ∨ d0 = d1) := by grind
  have xD : ∀ i, (i = a0 ∨ i = b0 ∨ i = a2 ∨ i = c2 ∨ i = b1 ∨ i = d1) → ¬ m.ext i := by
    unfold Mesh.ext at *; grind
  have tD : ∀ i, (i = a0 ∨ i = b0 ∨ i = a2 ∨ i = c2 ∨ i = b1 ∨ i = d1) →
      (twin i = a0 ∨ twin i = b0 ∨ twin i = a2 ∨ twin i = c2 ∨ twin i = b1 ∨ twin i = d1) := by grind
  have live' : ∀ i, m'.heLive i ↔ m.heLive i ∧ ¬ (i = a0 ∨ i = b0 ∨ i = a2 ∨ i = c2 ∨ i = b1 ∨ i = d1) := by
    intro i
    by_cases h : i = a0 ∨ i = b0 ∨ i = a2 ∨ i = c2 ∨ i = b1 ∨ i = d1
    · refine iff_of_false (fun h' => h'.2 (F.nextd i h)) (fun h' => h'.2 h)
    · unfold heLive
      rw [F.next i h, q1]
      have z1 := (hv.live_lt_INV lc0).ne
      have z2 := (hv.live_lt_INV la1).ne
      have z3 := (hv.live_lt_INV ld2).ne
      have z4 := (hv.live_lt_INV lb2).ne
      have w1 := la1; have w2 := lb2; have w3 := ld0; have w4 := lc1
      unfold heLive at w1 w2 w3 w4
      split_ifs <;> grind
  have ext' : ∀ i, ¬ (i = a0 ∨ i = b0 ∨ i = a2 ∨ i = c2 ∨ i = b1 ∨ i = d1) → (m'.ext i ↔ m.ext i) := by
    intro i h
    unfold Mesh.ext at *
    rw [F.face i h, q7]
    grind
  have Mn : ∀ i, m.heLive i → i ≠ a2 → i ≠ c2 → i ≠ b1 → i ≠ d1 → M.heNext i = if m.heNext i = a2 then c0 else
      if m.heNext i = b1 then (if c1 = d1 then a0 else d2) else if m.heNext i = d1 then b2 else
      if m.heNext i = c2 then a0 else m.heNext i := fun i h h1 h2 h3 h4 => J.next i ((J.live i).2 ⟨h, h1, h2, h3, h4⟩)
  have Ma0 : M.heNext a0 = a1 := by rw [Mn a0 la0] <;> grind
  have Mb0 : M.heNext b0 = if c1 = d1 then a0 else d2 := by rw [Mn b0 lb0] <;> grind
  refine {
    lA := (J.live _).2 ⟨la0, by grind⟩
    hB := tb.symm
    vne := by rw [J.vert, J.vert]; exact AB
    iA := by rw [J.ext]; exact xa
    nAB := by rw [Ma0]; grind
    next_A := F.nextd _ (by grind)
    next_B := F.nextd _ (by grind)
    next_o := ?_
    next_dead := ?_
    v_o := ?_
    f_o := ?_
    deg := ?_
    bdy := ?_
    vh_A := by rw [J.vert, F.vh, if_pos rfl]
    vh_l := ?_
    vh_d := ?_
    vh_b := ?_
    fh_l := ?_
    fh_d := ?_
    c_heFill := by rw [q1, k1]
    c_heCap := by rw [q2, k2]
    c_eFill := by rw [q3, k3]
    c_eCap := by rw [q4, k4]
    c_vFill := by rw [q5, k5]
    c_vCap := by rw [q6, k6]
    c_fFill := by rw [q7, k7]
    c_fCap := by rw [q8, k8]
    c_blFill := by rw [q9, k9]
    c_he := by clear * - q10 k10; omega
    c_int := by
      have : M.heFace b0 < M.nFFill := by
        have := (J.ext b0).not.2 xb; unfold Mesh.ext at this; exact not_le.1 this
      rw [if_pos this]; clear * - q11 k11; omega
    c_e := by clear * - q12 k12; omega
    c_v := by clear * - q13 k13; omega
    c_f := by clear * - q14 k14; omega
    c_bl := by clear * - q15 k15; omega }
  · intro i hi h1 h2
    obtain ⟨l0, l1, l2, l3, l4⟩ := (J.live i).1 hi
    rw [F.next i (by grind), Ma0, Mb0, Mn i l0 l1 l2 l3 l4]
    have j1 : m.heNext i = a2 → i = a1 := fun h => hv.next_inj l0 la1 (by rw [h, na1])
    have j2 : m.heNext i = b1 → i = b0 := fun h => hv.next_inj l0 lb0 (by rw [h, nb0])
    have j3 : m.heNext i = d1 → i = d0 := fun h => hv.next_inj l0 ld0 (by rw [h, nd0])
    have j4 : m.heNext i = c2 → i = c1 := fun h => hv.next_inj l0 lc1 (by rw [h, nc1])
    have j5 : m.heNext i = a0 → i = a2 := fun h => hv.next_inj l0 la2 (by rw [h, na2])
    have j6 : m.heNext i = b0 → i = b2 := fun h => hv.next_inj l0 lb2 (by rw [h, nb2])
    by_cases e1 : i = a1
    · grind
    by_cases e2 : i = b2
    · grind
    by_cases e3 : i = d0
    · grind
    by_cases e4 : i = c1
    · grind
    · grind
  · intro i hn
    by_cases h : m.heLive i
    · have : i = a0 ∨ i = b0 ∨ i = a2 ∨ i = c2 ∨ i = b1 ∨ i = d1 := by
        by_contra c
        rw [not_or, not_or, not_or, not_or, not_or] at c
        exact hn ((J.live i).2 ⟨h, c.2.2.1, c.2.2.2.1, c.2.2.2.2.1, c.2.2.2.2.2⟩)
      rw [F.nextd i this, J.nextd i h hn]
    · have hx : ¬ (i = a0 ∨ i = b0 ∨ i = a2 ∨ i = c2 ∨ i = b1 ∨ i = d1) := by grind
      rw [F.next i hx, J.next0 i h]
      grind
  · intro i hi h1 h2
    obtain ⟨l0, l1, l2, l3, l4⟩ := (J.live i).1 hi
    rw [F.vert i l0 (by grind), J.vert, J.vert, J.vert]
  · intro i hi h1 h2
    obtain ⟨l0, l1, l2, l3, l4⟩ := (J.live i).1 hi
    rw [F.face i (by grind), J.face]
    have mA := hv.tri_mem la0 l0 (by rw [na0, na1, na2])
    have mB := hv.tri_mem lb0 l0 (by rw [nb0, nb1, nb2])
    grind
  · intro i hi
    obtain ⟨l0, l1⟩ := (live' i).1 hi
    have := hv.deg_two i l0
    rw [F.next i l1]
    grind
  · intro i j hi hj h1 h2 x1 x2 e1
    rw [J.vert, J.vert] at e1
    exact absurd ((J.ext i).1 x1) (inA i ((J.live i).1 hi).1 e1)
  · intro v hvl hne
    rw [J.vlive] at hvl
    rw [J.vert] at hne
    obtain ⟨h1, h2⟩ := hv.v_he v hvl
    have ht := tD (m.vHalfedge v)
    have hx := xD (twin (m.vHalfedge v))
    have key : ∀ j, m.heLive j → ¬ (j = a0 ∨ j = b0 ∨ j = a2 ∨ j = c2 ∨ j = b1 ∨ j = d1) → m.heVertex j = v →
        m'.heLive j ∧ m'.heVertex j = v := by
      intro j lj hj vj
      exact ⟨(live' j).2 ⟨lj, hj⟩, by rw [F.vert j lj hj, vj, if_neg hne]⟩
    rw [F.vh, if_neg hne]
    split_ifs with g1 g2 g3 g4
    · exact key _ h1 (fun h => hx (ht h) g1) h2
    · exact key _ lb2 nDb2 g2.symm
    · exact key _ lc0 nDc0 (by rw [vc0, g3])
    · exact key _ la1 nDa1 (by rw [va1, g4])
    · exact key _ h1 (by grind) h2
  · intro v hvl
    rw [J.vlive] at hvl
    rw [F.vh, J.vh0 v hvl]
    have ne : ∀ {i}, m.heLive i → v ≠ m.heVertex i := fun li h => hvl (h ▸ hv.vertex_live _ li)
    rw [if_neg (ne la0), if_neg (ne lb2), if_neg (ne la2), if_neg (ne lb0), ite_self]
  · intro i hi xi
    obtain ⟨l0, l1⟩ := (live' i).1 hi
    have x0 := (ext' i l1).1 xi
    have vi : m.heVertex i ≠ m.heVertex a0 := fun h => inA i l0 h x0
    have b := hv.bdy_first i l0 x0
    rw [F.vert i l0 l1, if_neg vi, F.vh, if_neg vi, if_pos b, ext']
    · exact b
    · exact fun h => xD _ h b
  · intro f hf
    obtain ⟨f0, f1, f2⟩ := (J.flive f).1 hf
    obtain ⟨h1, h2⟩ := hv.f_he f f0
    have key : ∀ j, m.heLive j → ¬ (j = a0 ∨ j = b0 ∨ j = a2 ∨ j = c2 ∨ j = b1 ∨ j = d1) → m.heFace j = f →
        m'.heLive j ∧ m'.heFace j = f := by
      intro j lj hj fj
      refine ⟨(live' j).2 ⟨lj, hj⟩, ?_⟩
      rw [F.face j hj]; grind
    rw [F.fh, if_neg (by grind)]
    split_ifs with g1 g2
    · exact key _ ld0 nDd0 (by rw [fd0, g1])
    · exact key _ lc0 nDc0 (by rw [fc0, g2])
    · exact key _ h1 (by grind) h2
  · intro f hn
    rw [F.fh]
    by_cases h : m.fLive f
    · rw [J.fhd f h hn, if_pos]
      rw [J.flive] at hn; grind
    · have ne : ∀ {i}, m.heLive i → f ≠ m.heFace i := fun li h' => h (h' ▸ hv.face_live _ li)
      rw [if_neg (by rintro (h | h); exacts [ne la0 h, ne lb0 h]), if_neg (ne ld1), if_neg (ne lc2), J.fh0 f h]

theorem vIsBoundary_iff (w : Mesh) (v : ℕ) : w.vIsBoundary v ↔ w.ext (twin (w.vHalfedge v)) := by
  unfold vIsBoundary heIsInterior faceIsBL Mesh.ext; rw [not_not]

theorem setIfInner_bdy (w : Mesh) (v h u : ℕ) :
    (w.setIfInner v h).vIsBoundary u ↔ w.ext (twin ((w.setIfInner v h).vHalfedge u)) := by
  rw [vIsBoundary_iff, setIfInner_rest]; rfl

/-- The three conditional writes to the stored halfedges. -/
theorem three_vh (w : Mesh) {vB vC vD x y z : ℕ} (hBC : vC ≠ vB) (hBD : vD ≠ vB)
    (hCD : vC = vD → ¬ w.ext (twin (w.vHalfedge vC)) → ¬ w.ext (twin y)) (u : ℕ) :
    (((w.setIfInner vB x).setIfInner vC y).setIfInner vD z).vHalfedge u =
      if u = vD ∧ ¬ w.ext (twin (w.vHalfedge vD)) then z else if u = vC ∧ ¬ w.ext (twin (w.vHalfedge vC)) then y else
      if u = vB ∧ ¬ w.ext (twin (w.vHalfedge vB)) then x else w.vHalfedge u := by
  have e : ∀ i, (w.setIfInner vB x).ext i ↔ w.ext i := by intro i; rw [setIfInner_rest]; rfl
  have h1 : ∀ u, (w.setIfInner vB x).vHalfedge u = if u = vB ∧ ¬ w.ext (twin (w.vHalfedge vB)) then x else w.vHalfedge u := by
    intro u; rw [setIfInner_vh]; simp only [vIsBoundary_iff]
  have h2 : ∀ u, ((w.setIfInner vB x).setIfInner vC y).vHalfedge u = if u = vC ∧ ¬ w.ext (twin (w.vHalfedge vC)) then y else
      if u = vB ∧ ¬ w.ext (twin (w.vHalfedge vB)) then x else w.vHalfedge u := by
    intro u; rw [setIfInner_vh]; simp only [vIsBoundary_iff, e, h1, if_neg (fun h : vC = vB ∧ _ => hBC h.1)]
  rw [setIfInner_vh]
  simp only [setIfInner_bdy, e, h2, if_neg (fun h : vD = vB ∧ _ => hBD h.1)]
  by_cases c : vC = vD
  · by_cases c2 : w.ext (twin (w.vHalfedge vC))
    · subst c; simp [c2]
    · have := hCD c c2
      subst c; simp [c2, this]
  · simp [show ¬ vD = vC from fun h => c h.symm]

theorem three_rest (w : Mesh) (vB vC vD x y z : ℕ) :
    (((w.setIfInner vB x).setIfInner vC y).setIfInner vD z) =
      { w with vHalfedge := (((w.setIfInner vB x).setIfInner vC y).setIfInner vD z).vHalfedge } := by
  unfold setIfInner; split_ifs <;> rfl

/-- The deletions after the writes. -/
theorem fin_of (I : Inner m a0 a1 a2 b0 b1 b2 c0 c1 c2 d0 d1 d2) {w : Mesh}
    (wn : ∀ i, ¬ (i = a0 ∨ i = b0 ∨ i = a2 ∨ i = c2 ∨ i = b1 ∨ i = d1) → w.heNext i =
      if i = a1 then c0 else if i = b2 then (if c1 = d1 then a1 else d2) else if i = d0 then b2 else
        if i = c1 then a1 else m.heNext i)
    (wv : ∀ i, m.heLive i → ¬ (i = a0 ∨ i = b0 ∨ i = a2 ∨ i = c2 ∨ i = b1 ∨ i = d1) → w.heVertex i =
      if m.heVertex i = m.heVertex a0 then m.heVertex b0 else m.heVertex i)
    (wf : ∀ i, w.heFace i = if i = a1 then m.heFace c2 else if i = b2 then m.heFace d1 else m.heFace i)
    (wvh : ∀ v, v ≠ m.heVertex a0 → w.vHalfedge v = if m.ext (twin (m.vHalfedge v)) then m.vHalfedge v else
      if v = m.heVertex b2 then b2 else if v = m.heVertex a2 then c0 else if v = m.heVertex b0 then a1 else m.vHalfedge v)
    (wfh : ∀ f, w.fHalfedge f = if f = m.heFace d1 then d0 else if f = m.heFace c2 then c0 else m.fHalfedge f)
    (wc : w.nHeFill = m.nHeFill ∧ w.nHeCap = m.nHeCap ∧ w.nEFill = m.nEFill ∧ w.nECap = m.nECap ∧ w.nVFill = m.nVFill ∧
      w.nVCap = m.nVCap ∧ w.nFFill = m.nFFill ∧ w.nFCap = m.nFCap ∧ w.nBLFill = m.nBLFill ∧ w.nHe = m.nHe ∧
      w.nInt = m.nInt ∧ w.nE = m.nE ∧ w.nV = m.nV ∧ w.nF = m.nF ∧ w.nBL = m.nBL) :
    Fin m (collapseDelete m w a0) a0 a1 a2 b0 b1 b2 c0 c1 c2 d0 d1 d2 := by
  have hD : ∀ i, ((i = a2 ∨ i = twin a2) ∨ (i = b1 ∨ i = twin b1) ∨ (i = a0 ∨ i = twin a0)) ↔
      (i = a0 ∨ i = b0 ∨ i = a2 ∨ i = c2 ∨ i = b1 ∨ i = d1) := by
    intro i; rw [I.tb, I.tc, I.td]; tauto
  have com : ∀ {P Q R : Prop} [Decidable P] [Decidable Q] [Decidable R] (x y : ℕ),
      (if P then x else if Q then x else if R then x else y) = if P ∨ Q ∨ R then x else y := by
    intro P Q R _ _ _ x y; by_cases p : P <;> by_cases q : Q <;> by_cases r : R <;> simp [p, q, r]
  obtain ⟨w1, hw1⟩ : ∃ w1, w1 = ((w.deleteEdgeBundle (heEdge a0)).deleteEdgeBundle (heEdge b1)).deleteEdgeBundle (heEdge a2) := ⟨_, rfl⟩
  have hN : ∀ i, w1.heNext i = if i = a0 ∨ i = b0 ∨ i = a2 ∨ i = c2 ∨ i = b1 ∨ i = d1 then INV else w.heNext i := by
    intro i; rw [hw1, del_next, del_next, del_next, com, if_congr (hD i) rfl rfl]
  have hV : ∀ i, w1.heVertex i = if i = a0 ∨ i = b0 ∨ i = a2 ∨ i = c2 ∨ i = b1 ∨ i = d1 then INV else w.heVertex i := by
    intro i; rw [hw1, del_vertex, del_vertex, del_vertex, com, if_congr (hD i) rfl rfl]
  have hF : ∀ i, w1.heFace i = if i = a0 ∨ i = b0 ∨ i = a2 ∨ i = c2 ∨ i = b1 ∨ i = d1 then INV else w.heFace i := by
    intro i; rw [hw1, del_face, del_face, del_face, com, if_congr (hD i) rfl rfl]
  have hm' : collapseDelete m w a0 =
      ((w1.deleteVertex (m.heVertex a0)).deleteFace (m.heFace a0)).deleteFace (m.heFace b0) := by
    unfold collapseDelete; rw [I.tb, I.nb0, I.na0, I.na1, hw1]
  obtain ⟨q1, q2, q3, q4, q5, q6, q7, q8, q9, q10, q11, q12, q13, q14, q15⟩ := wc
  have g1 : m.heFace a0 < w.nFFill := by have := I.xa; unfold Mesh.ext at this; rw [q7]; exact not_le.1 this
  have g2 : m.heFace b0 < w.nFFill := by have := I.xb; unfold Mesh.ext at this; rw [q7]; exact not_le.1 this
  have g3 : m.heFace c2 < w.nFFill := by have := I.xc; unfold Mesh.ext at this; rw [q7]; exact not_le.1 this
  have g4 : m.heFace d1 < w.nFFill := by have := I.xd; unfold Mesh.ext at this; rw [q7]; exact not_le.1 this
  have wl : ∀ i, m.heFace i < w.nFFill → w.heFace i < w.nFFill := by
    intro i hi; rw [wf]; split_ifs <;> assumption
  have na : a2 ≠ a0 := by intro h; exact I.CA (by rw [h])
  have nb : b1 ≠ a0 := by intro h; exact I.fAB (by rw [← h, I.fb1])
  have nb' : b1 ≠ b0 := by intro h; exact I.AB (by rw [← I.vb1, h])
  have na' : a2 ≠ b0 := by intro h; exact I.fAB (by rw [← I.fa2, h])
  have n1 : d1 ≠ a0 := by intro h; exact I.fAD (by rw [h])
  have n2 : d1 ≠ b0 := by intro h; exact I.fBD (by rw [h])
  have n3 : c2 ≠ a0 := by intro h; exact I.fAC (by rw [h])
  have n4 : c2 ≠ b0 := by intro h; exact I.fBC (by rw [h])
  have n5 : a2 ≠ b1 := by intro h; exact I.fAB (by rw [← I.fa2, h, I.fb1])
  have n6 : a2 ≠ d1 := by intro h; exact I.fAD (by rw [← I.fa2, h])
  have n7 : c2 ≠ b1 := by intro h; exact I.fBC (by rw [h, I.fb1])
  have n8 : c2 ≠ d1 := by intro h; exact I.DA (by rw [← I.vd1, ← h, I.vc2])
  have hI : w1.nInt = m.nInt - 6 := by
    have e1 : (w.deleteEdgeBundle (heEdge a0)).nInt = w.nInt - 2 := by
      rw [del_int _ _ (not_le.2 (wl _ g1)), I.tb, if_pos (wl _ g2)]
    have e2 : ((w.deleteEdgeBundle (heEdge a0)).deleteEdgeBundle (heEdge b1)).nInt = w.nInt - 2 - 2 := by
      rw [del_int, I.td, if_pos, e1]
      · rw [del_face, if_neg (by rw [I.tb]; rintro (h | h); exacts [n1 h, n2 h])]
        exact wl _ g4
      · show ¬ w.nFFill ≤ _
        rw [del_face, if_neg (by rw [I.tb]; rintro (h | h); exacts [nb h, nb' h]), not_le]
        exact wl _ (by rw [I.fb1]; exact g2)
    rw [hw1, del_int, I.tc, if_pos, e2, q11]
    · omega
    · rw [del_face, if_neg (by rw [I.td]; rintro (h | h); exacts [n7 h, n8 h]), del_face,
        if_neg (by rw [I.tb]; rintro (h | h); exacts [n3 h, n4 h])]
      exact wl _ g3
    · show ¬ w.nFFill ≤ _
      rw [del_face, if_neg (by rw [I.td]; rintro (h | h); exacts [n5 h, n6 h]), del_face,
        if_neg (by rw [I.tb]; rintro (h | h); exacts [na h, na' h]), not_le]
      exact wl _ (by rw [I.fa2]; exact g1)
  have k1 : w1.nHe = w.nHe - 1 - 1 - 1 - 1 - 1 - 1 := by rw [hw1]; rfl
  have k2 : w1.nE = w.nE - 1 - 1 - 1 := by rw [hw1]; rfl
  have k3 : w1.vHalfedge = w.vHalfedge := by rw [hw1]; rfl
  have k4 : w1.fHalfedge = w.fHalfedge := by rw [hw1]; rfl
  rw [hm']
  refine ⟨?_, ?_, ?_, ?_, ?_, ?_, ?_⟩
  · intro i hi; show w1.heNext i = _; rw [hN, if_pos hi]
  · intro i hi; show w1.heNext i = _; rw [hN, if_neg hi, wn i hi]
  · intro i li hi; show w1.heVertex i = _; rw [hV, if_neg hi, wv i li hi]
  · intro i hi; show w1.heFace i = _; rw [hF, if_neg hi, wf i]
  · intro v
    show upd w1.vHalfedge _ INV v = _
    rw [upd_apply, k3]
    by_cases h : v = m.heVertex a0
    · rw [if_pos h, if_pos h]
    · rw [if_neg h, if_neg h, wvh v h]
  · intro f
    show upd (upd w1.fHalfedge _ INV) _ INV f = _
    rw [upd_apply, upd_apply, k4, wfh]
    by_cases h : f = m.heFace b0
    · rw [if_pos h, if_pos (Or.inr h)]
    · by_cases h' : f = m.heFace a0
      · rw [if_neg h, if_pos h', if_pos (Or.inl h')]
      · rw [if_neg h, if_neg h', if_neg (show ¬ (f = m.heFace a0 ∨ f = m.heFace b0) from fun c => c.elim h' h)]
  · have r1 : w1.nHeFill = w.nHeFill := by rw [hw1]; rfl
    have r2 : w1.nHeCap = w.nHeCap := by rw [hw1]; rfl
    have r3 : w1.nEFill = w.nEFill := by rw [hw1]; rfl
    have r4 : w1.nECap = w.nECap := by rw [hw1]; rfl
    have r5 : w1.nVFill = w.nVFill := by rw [hw1]; rfl
    have r6 : w1.nVCap = w.nVCap := by rw [hw1]; rfl
    have r7 : w1.nFFill = w.nFFill := by rw [hw1]; rfl
    have r8 : w1.nFCap = w.nFCap := by rw [hw1]; rfl
    have r9 : w1.nBLFill = w.nBLFill := by rw [hw1]; rfl
    have r10 : w1.nV = w.nV := by rw [hw1]; rfl
    have r11 : w1.nF = w.nF := by rw [hw1]; rfl
    have r12 : w1.nBL = w.nBL := by rw [hw1]; rfl
    refine ⟨r1.trans q1, r2.trans q2, r3.trans q3, r4.trans q4, r5.trans q5, r6.trans q6, r7.trans q7, r8.trans q8, r9.trans q9,
      ?_, hI, ?_, ?_, ?_, r12.trans q15⟩
    · show w1.nHe = _; rw [k1, q10]; omega
    · show w1.nE = _; rw [k2, q12]; omega
    · show w1.nV - 1 = _; rw [r10, q13]
    · show w1.nF - 1 - 1 = _; rw [r11, q14]; omega

/-- No exterior halfedge at an inner vertex. -/
theorem twin_inner (hv : m.Valid) {y : ℕ} (ly : m.heLive y) (h : ¬ m.ext (twin (m.vHalfedge (m.heVertex y)))) :
    ¬ m.ext (twin y) := by
  intro x
  have lt := hv.twin_live _ ly
  have hn := (hv.ext_next lt).2 x
  have := hv.bdy_first _ (hv.next_live _ lt) hn
  rw [hv.vertex_next lt, twin_twin] at this
  exact h this

theorem fin_big (hv : m.Valid) (I : Inner m a0 a1 a2 b0 b1 b2 c0 c1 c2 d0 d1 d2) (hc : m.heFace c2 ≠ m.heFace d1)
    {outs : List ℕ} (ho : ∀ i, i ∈ outs ↔ m.heLive i ∧ m.heVertex i = m.heVertex a0) :
    Fin m (collapseDelete m (m.collapseBigWrites a0 outs) a0) a0 a1 a2 b0 b1 b2 c0 c1 c2 d0 d1 d2 := by
  have cd : c1 ≠ d1 := by intro h; exact hc (by rw [← h, I.fc1])
  have n1 : a1 ≠ b2 := by intro h; exact I.fAB (by rw [← I.fa1, h, I.fb2])
  have n2 : a1 ≠ d0 := by intro h; exact I.fAD (by rw [← I.fa1, h, I.fd0])
  have n3 : a1 ≠ c1 := by intro h; exact I.fAC (by rw [← I.fa1, h, I.fc1])
  have n4 : b2 ≠ d0 := by intro h; exact I.fBD (by rw [← I.fb2, h, I.fd0])
  have n5 : b2 ≠ c1 := by intro h; exact I.fBC (by rw [← I.fb2, h, I.fc1])
  have n6 : c1 ≠ d0 := by intro h; exact hc (by rw [← I.fc1, h, I.fd0])
  have hw := three_rest ({ m with
    heVertex := writeAll m.heVertex outs (m.heVertex b0),
    heNext := upd (upd (upd (upd m.heNext d0 b2) b2 d2) c1 a1) a1 c0,
    heFace := upd (upd m.heFace b2 (m.heFace d0)) a1 (m.heFace c0),
    fHalfedge := upd (upd m.fHalfedge (m.heFace c0) c0) (m.heFace d0) d0 } : Mesh) (m.heVertex b0) (m.heVertex c0) (m.heVertex d1) a1 c0 b2
  have hwv := three_vh ({ m with
    heVertex := writeAll m.heVertex outs (m.heVertex b0),
    heNext := upd (upd (upd (upd m.heNext d0 b2) b2 d2) c1 a1) a1 c0,
    heFace := upd (upd m.heFace b2 (m.heFace d0)) a1 (m.heFace c0),
    fHalfedge := upd (upd m.fHalfedge (m.heFace c0) c0) (m.heFace d0) d0 } : Mesh) (vB := m.heVertex b0) (vC := m.heVertex c0)
    (vD := m.heVertex d1) (x := a1) (y := c0) (z := b2)
  have hdef : m.collapseBigWrites a0 outs = (((({ m with
    heVertex := writeAll m.heVertex outs (m.heVertex b0),
    heNext := upd (upd (upd (upd m.heNext d0 b2) b2 d2) c1 a1) a1 c0,
    heFace := upd (upd m.heFace b2 (m.heFace d0)) a1 (m.heFace c0),
    fHalfedge := upd (upd m.fHalfedge (m.heFace c0) c0) (m.heFace d0) d0 } : Mesh).setIfInner
      (m.heVertex b0) a1).setIfInner (m.heVertex c0) c0).setIfInner (m.heVertex d1) b2) := by
    simp only [collapseBigWrites, I.tb, I.nb0, I.td, I.nd1, I.nd2, I.nb1, I.na0, I.na1, I.tc, I.nc2, I.nc0]
  rw [← hdef] at hw hwv
  have hf : ∀ i, upd (upd m.heFace b2 (m.heFace d0)) a1 (m.heFace c0) i =
      if i = a1 then m.heFace c2 else if i = b2 then m.heFace d1 else m.heFace i := by
    intro i; rw [upd_apply, upd_apply, I.fd0, I.fc0]
  have hx : ∀ i, m.nFFill ≤ upd (upd m.heFace b2 (m.heFace d0)) a1 (m.heFace c0) i ↔ m.ext i := by
    intro i; rw [hf]
    have e1 := I.xa; have e2 := I.xb; have e3 := I.xc; have e4 := I.xd
    have f1 := I.fa1; have f2 := I.fb2
    unfold Mesh.ext at *
    by_cases h : i = a1
    · rw [if_pos h, h, f1]; exact iff_of_false e3 e1
    · by_cases h' : i = b2
      · rw [if_neg h, if_pos h', h', f2]; exact iff_of_false e4 e2
      · rw [if_neg h, if_neg h']
  refine fin_of I ?_ ?_ ?_ ?_ ?_ ?_
  · intro i hi
    rw [hw]
    show upd (upd (upd (upd m.heNext d0 b2) b2 d2) c1 a1) a1 c0 i = _
    rw [upd_apply, upd_apply, upd_apply, upd_apply, if_neg cd]
    by_cases h1 : i = a1
    · rw [if_pos h1, if_pos h1]
    by_cases h2 : i = b2
    · rw [if_neg h1, if_neg h1, if_neg (by rw [h2]; exact n5), if_pos h2, if_pos h2]
    by_cases h3 : i = d0
    · rw [if_neg h1, if_neg h1, if_neg (by rw [h3]; exact n6.symm), if_neg h2, if_neg h2, if_pos h3, if_pos h3]
    · rw [if_neg h1, if_neg h1, if_neg h2, if_neg h2, if_neg h3, if_neg h3]
  · intro i li hi
    rw [hw]
    show writeAll m.heVertex outs (m.heVertex b0) i = _
    rw [writeAll_apply]
    by_cases h : m.heVertex i = m.heVertex a0
    · rw [if_pos ((ho i).2 ⟨li, h⟩), if_pos h]
    · rw [if_neg (fun h' => h ((ho i).1 h').2), if_neg h]
  · intro i; rw [hw]; exact hf i
  · intro v hva
    rw [hwv (by rw [I.vc0]; exact I.CB) (by rw [I.vd1]; exact I.DB) (fun _ h => by
      have h2 : ¬ m.ext (twin (m.vHalfedge (m.heVertex c0))) := fun h' => h ((hx _).2 h')
      exact fun h3 => twin_inner hv I.lc0 h2 ((hx _).1 h3))]
    have hx' : ∀ i, Mesh.ext ({ m with
      heVertex := writeAll m.heVertex outs (m.heVertex b0),
      heNext := upd (upd (upd (upd m.heNext d0 b2) b2 d2) c1 a1) a1 c0,
      heFace := upd (upd m.heFace b2 (m.heFace d0)) a1 (m.heFace c0),
      fHalfedge := upd (upd m.fHalfedge (m.heFace c0) c0) (m.heFace d0) d0 } : Mesh) i ↔ m.ext i := hx
    simp only [hx']
    rw [I.vd1, I.vc0]
    by_cases e : m.ext (twin (m.vHalfedge v))
    · rw [if_pos e, if_neg, if_neg, if_neg]
      · rintro ⟨h, h'⟩; rw [h] at e; exact h' e
      · rintro ⟨h, h'⟩; rw [h] at e; exact h' e
      · rintro ⟨h, h'⟩; rw [h] at e; exact h' e
    · rw [if_neg e]
      refine if_congr ⟨fun h => h.1, fun h => ⟨h, h ▸ e⟩⟩ rfl (if_congr ⟨fun h => h.1, fun h => ⟨h, h ▸ e⟩⟩ rfl
        (if_congr ⟨fun h => h.1, fun h => ⟨h, h ▸ e⟩⟩ rfl rfl))
  · intro f
    rw [hw]
    show upd (upd m.fHalfedge (m.heFace c0) c0) (m.heFace d0) d0 f = _
    rw [upd_apply, upd_apply, I.fd0, I.fc0]
  · rw [hw]; exact ⟨rfl, rfl, rfl, rfl, rfl, rfl, rfl, rfl, rfl, rfl, rfl, rfl, rfl, rfl, rfl⟩

theorem fin_three (hv : m.Valid) (I : Inner m a0 a1 a2 b0 b1 b2 c0 c1 c2 d0 d1 d2) (cd : c1 = d1)
    (ho : ∀ i, m.heLive i → m.heVertex i = m.heVertex a0 → i = a0 ∨ i = c2 ∨ i = b1) :
    Fin m (collapseDelete m (m.collapseThreeWrites a0) a0) a0 a1 a2 b0 b1 b2 c0 c1 c2 d0 d1 d2 := by
  have d0c : d0 = c0 := hv.next_inj I.ld0 I.lc0 (by rw [I.nd0, I.nc0, cd])
  have n1 : a1 ≠ b2 := by intro h; exact I.fAB (by rw [← I.fa1, h, I.fb2])
  have n2 : a1 ≠ c0 := by intro h; exact I.fAC (by rw [← I.fa1, h, I.fc0])
  have n4 : b2 ≠ c0 := by intro h; exact I.fBC (by rw [← I.fb2, h, I.fc0])
  have hw := three_rest ({ m with
    heNext := upd (upd (upd m.heNext a1 c0) c0 b2) b2 a1,
    heFace := upd (upd m.heFace b2 (m.heFace c0)) a1 (m.heFace c0),
    fHalfedge := upd m.fHalfedge (m.heFace c0) c0 } : Mesh) (m.heVertex b0) (m.heVertex c0) (m.heVertex c1) a1 c0 b2
  have hwv := three_vh ({ m with
    heNext := upd (upd (upd m.heNext a1 c0) c0 b2) b2 a1,
    heFace := upd (upd m.heFace b2 (m.heFace c0)) a1 (m.heFace c0),
    fHalfedge := upd m.fHalfedge (m.heFace c0) c0 } : Mesh) (vB := m.heVertex b0) (vC := m.heVertex c0)
    (vD := m.heVertex c1) (x := a1) (y := c0) (z := b2)
  have hdef : m.collapseThreeWrites a0 = (((({ m with
    heNext := upd (upd (upd m.heNext a1 c0) c0 b2) b2 a1,
    heFace := upd (upd m.heFace b2 (m.heFace c0)) a1 (m.heFace c0),
    fHalfedge := upd m.fHalfedge (m.heFace c0) c0 } : Mesh).setIfInner
      (m.heVertex b0) a1).setIfInner (m.heVertex c0) c0).setIfInner (m.heVertex c1) b2) := by
    simp only [collapseThreeWrites, I.tb, I.nb0, I.nb1, I.na0, I.na1, I.tc, I.nc2, I.nc0]
  rw [← hdef] at hw hwv
  have hf : ∀ i, upd (upd m.heFace b2 (m.heFace c0)) a1 (m.heFace c0) i =
      if i = a1 then m.heFace c2 else if i = b2 then m.heFace d1 else m.heFace i := by
    intro i; rw [upd_apply, upd_apply, I.fc0, ← cd, I.fc1]
  have hx : ∀ i, m.nFFill ≤ upd (upd m.heFace b2 (m.heFace c0)) a1 (m.heFace c0) i ↔ m.ext i := by
    intro i; rw [hf]
    have e1 := I.xa; have e2 := I.xb; have e3 := I.xc; have e4 := I.xd
    have f1 := I.fa1; have f2 := I.fb2
    unfold Mesh.ext at *
    by_cases h : i = a1
    · rw [if_pos h, h, f1]; exact iff_of_false e3 e1
    · by_cases h' : i = b2
      · rw [if_neg h, if_pos h', h', f2]; exact iff_of_false e4 e2
      · rw [if_neg h, if_neg h']
  refine fin_of I ?_ ?_ ?_ ?_ ?_ ?_
  · intro i hi
    rw [hw]
    show upd (upd (upd m.heNext a1 c0) c0 b2) b2 a1 i = _
    rw [upd_apply, upd_apply, upd_apply, if_pos cd, d0c]
    by_cases h1 : i = a1
    · rw [if_pos h1, if_neg (by rw [h1]; exact n1), if_neg (by rw [h1]; exact n2), if_pos h1]
    by_cases h2 : i = b2
    · rw [if_pos h2, if_neg h1, if_pos h2]
    by_cases h3 : i = c0
    · rw [if_neg h1, if_neg h1, if_neg h2, if_neg h2, if_pos h3, if_pos h3]
    · rw [if_neg h1, if_neg h1, if_neg h2, if_neg h2, if_neg h3, if_neg h3, if_neg]
      rintro rfl; exact hi (by rw [cd]; simp)
  · intro i li hi
    rw [hw]
    show m.heVertex i = _
    rw [if_neg]
    intro h
    rcases ho i li h with h | h | h
    · exact hi (Or.inl h)
    · exact hi (Or.inr (Or.inr (Or.inr (Or.inl h))))
    · exact hi (Or.inr (Or.inr (Or.inr (Or.inr (Or.inl h)))))
  · intro i; rw [hw]; exact hf i
  · intro v hva
    rw [hwv (by rw [I.vc0]; exact I.CB) (by rw [cd, I.vd1]; exact I.DB) (fun _ h => by
      have h2 : ¬ m.ext (twin (m.vHalfedge (m.heVertex c0))) := fun h' => h ((hx _).2 h')
      exact fun h3 => twin_inner hv I.lc0 h2 ((hx _).1 h3))]
    have hx' : ∀ i, Mesh.ext ({ m with
      heNext := upd (upd (upd m.heNext a1 c0) c0 b2) b2 a1,
      heFace := upd (upd m.heFace b2 (m.heFace c0)) a1 (m.heFace c0),
      fHalfedge := upd m.fHalfedge (m.heFace c0) c0 } : Mesh) i ↔ m.ext i := hx
    simp only [hx']
    rw [cd, I.vd1, I.vc0]
    by_cases e : m.ext (twin (m.vHalfedge v))
    · rw [if_pos e, if_neg, if_neg, if_neg]
      · rintro ⟨h, h'⟩; rw [h] at e; exact h' e
      · rintro ⟨h, h'⟩; rw [h] at e; exact h' e
      · rintro ⟨h, h'⟩; rw [h] at e; exact h' e
    · rw [if_neg e]
      refine if_congr ⟨fun h => h.1, fun h => ⟨h, h ▸ e⟩⟩ rfl (if_congr ⟨fun h => h.1, fun h => ⟨h, h ▸ e⟩⟩ rfl
        (if_congr ⟨fun h => h.1, fun h => ⟨h, h ▸ e⟩⟩ rfl rfl))
  · intro f
    rw [hw]
    show upd m.fHalfedge (m.heFace c0) c0 f = _
    rw [upd_apply, I.fc0, ← cd, I.fc1, d0c]
    by_cases h : f = m.heFace c2
    · rw [if_pos h, if_pos h]
    · rw [if_neg h, if_neg h]
  · rw [hw]; exact ⟨rfl, rfl, rfl, rfl, rfl, rfl, rfl, rfl, rfl, rfl, rfl, rfl, rfl, rfl, rfl⟩

end

end Mesh
end GC
