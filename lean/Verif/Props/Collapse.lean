import Verif.MeshCollapseBdy

/-! # Property C13: collapseEdgeTriangular -/

namespace GC
namespace Mesh

/-- New place of a halfedge of a face that stays, when the edge of `a0` between two triangles is collapsed: the sides of
the two triangles at the tail of `a0` are replaced by the sides at its tip. -/
def colPlace (m : Mesh) (a0 i : ℕ) : ℕ :=
  if i = twin (m.heNext (m.heNext a0)) then m.heNext a0
  else if i = twin (m.heNext (twin a0)) then m.heNext (m.heNext (twin a0)) else i

/-- What the collapse of the edge of `a0` between two triangles is to do: `m'` is a valid triangle mesh, in which the
tail of `a0`, the two triangles and the three edges between them at the tail are gone, the tail is merged into the tip,
the other faces are as before up to `colPlace`, and the counts are right. -/
structure Collapsed (m m' : Mesh) (a0 : ℕ) : Prop where
  valid : m'.Valid
  tri : m'.TriMesh
  he : ∀ i, m'.heLive i ↔ m.heLive i ∧ i / 2 ≠ a0 / 2 ∧ i / 2 ≠ m.heNext (m.heNext a0) / 2 ∧ i / 2 ≠ m.heNext (twin a0) / 2
  v : ∀ v, m'.vLive v ↔ m.vLive v ∧ v ≠ m.heVertex a0
  f : ∀ f, m'.fLive f ↔ m.fLive f ∧ f ≠ m.heFace a0 ∧ f ≠ m.heFace (twin a0)
  ends : m.heVertex a0 ≠ m.heVertex (twin a0)
  vert : ∀ i, m'.heLive i → m'.heVertex i = if m.heVertex i = m.heVertex a0 then m.heVertex (twin a0) else m.heVertex i
  face : ∀ i, m.heLive i → m.heFace i ≠ m.heFace a0 → m.heFace i ≠ m.heFace (twin a0) →
    m'.heFace (m.colPlace a0 i) = m.heFace i
  next : ∀ i, m.heLive i → m.heFace i ≠ m.heFace a0 → m.heFace i ≠ m.heFace (twin a0) →
    m'.heNext (m.colPlace a0 i) = m.colPlace a0 (m.heNext i)
  ext : ∀ i, m'.heLive i → (m'.ext i ↔ m.ext i)
  count : m'.nHe + 6 = m.nHe ∧ m'.nE + 3 = m.nE ∧ m'.nF + 2 = m.nF ∧ m'.nV + 1 = m.nV ∧ m'.nBL = m.nBL ∧ m'.nInt + 6 = m.nInt

/-- New place of a halfedge of an interior face that stays, when the boundary edge of `a0` is collapsed. -/
def rimPlace (m : Mesh) (a0 i : ℕ) : ℕ := if i = twin (m.heNext (m.heNext a0)) then m.heNext a0 else i

/-- What the collapse of the boundary edge of `a0` is to do: `m'` is a valid triangle mesh, in which the tail of `a0`,
the triangle and its two edges at the tail are gone, the tail is merged into the tip, the boundary loop skips the edge,
the other faces are as before up to `rimPlace`, and the counts are right. -/
structure RimCollapsed (m m' : Mesh) (a0 : ℕ) : Prop where
  valid : m'.Valid
  tri : m'.TriMesh
  he : ∀ i, m'.heLive i ↔ m.heLive i ∧ i / 2 ≠ a0 / 2 ∧ i / 2 ≠ m.heNext (m.heNext a0) / 2
  v : ∀ v, m'.vLive v ↔ m.vLive v ∧ v ≠ m.heVertex a0
  f : ∀ f, m'.fLive f ↔ m.fLive f ∧ f ≠ m.heFace a0
  ends : m.heVertex a0 ≠ m.heVertex (twin a0)
  vert : ∀ i, m'.heLive i → m'.heVertex i = if m.heVertex i = m.heVertex a0 then m.heVertex (twin a0) else m.heVertex i
  face : ∀ i, m.heLive i → m.heFace i ≠ m.heFace a0 → i ≠ twin a0 → m'.heFace (m.rimPlace a0 i) = m.heFace i
  next : ∀ i, m.heLive i → m.heFace i ≠ m.heFace a0 → i ≠ twin a0 → m'.heNext (m.rimPlace a0 i) =
    if m.heNext i = twin a0 then m.heNext (twin a0) else m.rimPlace a0 (m.heNext i)
  ext : ∀ i, m'.heLive i → (m'.ext i ↔ m.ext i)
  count : m'.nHe + 4 = m.nHe ∧ m'.nE + 2 = m.nE ∧ m'.nF + 1 = m.nF ∧ m'.nV + 1 = m.nV ∧ m'.nBL = m.nBL ∧ m'.nInt + 3 = m.nInt

/-- The full property: in a triangle mesh the call refuses an edge, by the null vertex without a change or by an
exception, or collapses it or the other boundary edge of its triangle. -/
def C13_statement : Prop :=
  ∀ (m : Mesh), m.Valid → m.TriMesh → ∀ e, m.heLive (2 * e) →
    m.collapseEdgeTriangular e = .ok (m, INV) ∨ m.collapseEdgeTriangular e = .error .throw ∨
    (¬ m.ext (2 * e + 1) ∧ ∃ m' a0, (a0 = 2 * e ∨ a0 = 2 * e + 1) ∧
      m.collapseEdgeTriangular e = .ok (m', m.heVertex (twin a0)) ∧ Collapsed m m' a0) ∨
    (m.ext (2 * e + 1) ∧ ∃ m' a0, (a0 = 2 * e ∨ a0 = m.heNext (m.heNext (2 * e))) ∧
      m.collapseEdgeTriangular e = .ok (m', m.heVertex (twin a0)) ∧ RimCollapsed m m' a0)

theorem collapsed_of {m : Mesh} (hv : m.Valid) (tri : m.TriMesh) {m' : Mesh} {a0 a1 a2 b0 b1 b2 c0 c1 c2 d0 d1 d2 : ℕ}
    (I : Inner m a0 a1 a2 b0 b1 b2 c0 c1 c2 d0 d1 d2) (hc : c1 = d1 ∨ m.heFace c2 ≠ m.heFace d1)
    (F : Fin m m' a0 a1 a2 b0 b1 b2 c0 c1 c2 d0 d1 d2) : Collapsed m m' a0 := by
  obtain ⟨M, J⟩ := inner_rem hv I
  have S := fin_con hv I hc J F
  obtain ⟨V, gx, g1, g2, g3, g4⟩ := con_valid J.valid S
  obtain ⟨k1, k2, k3, k4, k5, k6, k7, k8, k9, k10, k11, k12, k13, k14, k15, k16⟩ := J.c
  obtain ⟨q1, q2, q3, q4, q5, q6, q7, q8, q9, q10, q11, q12, q13, q14, q15⟩ := F.c
  have g4' : 2 ≤ M.nInt := by
    have : M.heFace b0 < M.nFFill := by
      have := (J.ext b0).not.2 I.xb; unfold Mesh.ext at this; exact not_le.1 this
    rw [if_pos this] at g4; exact g4
  have cnt : m'.nHe + 6 = m.nHe ∧ m'.nE + 3 = m.nE ∧ m'.nF + 2 = m.nF ∧ m'.nV + 1 = m.nV ∧ m'.nBL = m.nBL ∧
      m'.nInt + 6 = m.nInt := by
    clear * - k10 k11 k12 k13 k14 k15 k16 q10 q11 q12 q13 q14 q15 g1 g2 g3 g4'
    omega
  have live' : ∀ i, m'.heLive i ↔ m.heLive i ∧ ¬ (i = a0 ∨ i = b0 ∨ i = a2 ∨ i = c2 ∨ i = b1 ∨ i = d1) := by
    intro i; rw [S.live J.valid, J.live]; clear * -; tauto
  have dc : c1 = d1 → d0 = c0 := fun h => hv.next_inj I.ld0 I.lc0 (by rw [I.nd0, I.nc0, h])
  have dc2 : c1 = d1 → d2 = c2 := fun h => by rw [← I.nd1, ← h, I.nc1]
  have pl : ∀ i, m.colPlace a0 i = if i = c2 then a1 else if i = d1 then b2 else i := by
    intro i; unfold colPlace; rw [I.na0, I.na1, I.tc, I.tb, I.nb0, I.td, I.nb1]
  have ext' : ∀ i, m'.heLive i → (m'.ext i ↔ m.ext i) := by
    intro i hi
    obtain ⟨h1, h2, h3⟩ := (S.live J.valid i).1 hi
    rw [gx i h1 h2 h3, J.ext]
  have c0d1 : c0 ≠ d1 := by
    intro h
    have e1 := I.nd1; rw [← h, I.nc0] at e1
    have e2 : m.heVertex (twin d2) = m.heVertex a0 := by rw [← hv.vertex_next I.ld2, ← e1, I.nc1, I.vc2]
    exact I.selfA d2 I.ld2 I.vd2 e2
  have c0c2 : c0 ≠ c2 := by have := hv.deg_two c2 I.lc2; rwa [I.nc2] at this
  have d1c2 : d1 ≠ c2 := by intro h; exact I.DA (by rw [← I.vd1, h, I.vc2])
  have d2d1 : d2 ≠ d1 := by have := hv.deg_two d1 I.ld1; rwa [I.nd1] at this
  have a1b2 : a1 ≠ b2 := by intro h; exact I.fAB (by rw [← I.fa1, h, I.fb2])
  have d2c2 : d2 = c2 → c1 = d1 := fun h => hv.next_inj I.lc1 I.ld1 (by rw [I.nc1, I.nd1, h])
  have nDa1 : ¬ (a1 = a0 ∨ a1 = b0 ∨ a1 = a2 ∨ a1 = c2 ∨ a1 = b1 ∨ a1 = d1) := by
    have p2 := hv.deg_two a1 I.la1
    have p1 := hv.deg_two a0 I.la0
    rw [I.na0] at p1; rw [I.na1] at p2
    rintro (h | h | h | h | h | h)
    · exact p1 h
    · exact I.fAB (by rw [← I.fa1, h])
    · exact p2 h.symm
    · exact I.fAC (by rw [← I.fa1, h])
    · exact I.fAB (by rw [← I.fa1, h, I.fb1])
    · exact I.fAD (by rw [← I.fa1, h])
  have nDb2 : ¬ (b2 = a0 ∨ b2 = b0 ∨ b2 = a2 ∨ b2 = c2 ∨ b2 = b1 ∨ b2 = d1) := by
    have p1 := hv.deg_two b1 I.lb1
    rw [I.nb1] at p1
    rintro (h | h | h | h | h | h)
    · exact I.fAB (by rw [← I.fb2, h])
    · exact I.DB (by rw [h])
    · exact I.fAB (by rw [← I.fb2, h, I.fa2])
    · exact I.fBC (by rw [← I.fb2, h])
    · exact p1 h
    · exact I.fBD (by rw [← I.fb2, h])
  have nDi : ∀ i, m.heFace i ≠ m.heFace a0 → m.heFace i ≠ m.heFace b0 → i ≠ c2 → i ≠ d1 →
      ¬ (i = a0 ∨ i = b0 ∨ i = a2 ∨ i = c2 ∨ i = b1 ∨ i = d1) := by
    intro i f1 f2 h1 h2
    rintro (h | h | h | h | h | h)
    · exact f1 (by rw [h])
    · exact f2 (by rw [h])
    · exact f1 (by rw [h, I.fa2])
    · exact h1 h
    · exact f2 (by rw [h, I.fb1])
    · exact h2 h
  have nai : ∀ i, m.heFace i ≠ m.heFace a0 → i ≠ a1 := fun i h e => h (by rw [e, I.fa1])
  have nbi : ∀ i, m.heFace i ≠ m.heFace b0 → i ≠ b2 := fun i h e => h (by rw [e, I.fb2])
  have face : ∀ i, m.heLive i → m.heFace i ≠ m.heFace a0 → m.heFace i ≠ m.heFace b0 →
      m'.heLive (m.colPlace a0 i) ∧ m'.heFace (m.colPlace a0 i) = m.heFace i := by
    intro i li f1 f2
    rw [pl]
    by_cases e1 : i = c2
    · rw [if_pos e1, live', F.face _ nDa1, if_pos rfl, e1]; exact ⟨⟨I.la1, nDa1⟩, rfl⟩
    by_cases e2 : i = d1
    · rw [if_neg e1, if_pos e2, live', F.face _ nDb2, if_neg a1b2.symm, if_pos rfl, e2]; exact ⟨⟨I.lb2, nDb2⟩, rfl⟩
    · have := nDi i f1 f2 e1 e2
      rw [if_neg e1, if_neg e2, live', F.face _ this, if_neg (nai i f1), if_neg (nbi i f2)]; exact ⟨⟨li, this⟩, rfl⟩
  have next : ∀ i, m.heLive i → m.heFace i ≠ m.heFace a0 → m.heFace i ≠ m.heFace b0 →
      m'.heNext (m.colPlace a0 i) = m.colPlace a0 (m.heNext i) := by
    intro i li f1 f2
    rw [pl, pl]
    by_cases e1 : i = c2
    · rw [if_pos e1, e1, F.next _ nDa1, if_pos rfl, I.nc2, if_neg c0c2, if_neg c0d1]
    by_cases e2 : i = d1
    · rw [if_neg e1, if_pos e2, e2, F.next _ nDb2, if_neg a1b2.symm, if_pos rfl, I.nd1, if_neg d2d1]
      by_cases c : c1 = d1
      · rw [if_pos c, if_pos (dc2 c)]
      · rw [if_neg c, if_neg (fun h => c (d2c2 h))]
    have hD := nDi i f1 f2 e1 e2
    rw [if_neg e1, if_neg e2, F.next _ hD, if_neg (nai i f1), if_neg (nbi i f2)]
    by_cases e3 : i = d0
    · rw [if_pos e3, e3, I.nd0, if_neg d1c2, if_pos rfl]
    by_cases e4 : i = c1
    · rw [if_neg e3, if_pos e4, e4, I.nc1, if_pos rfl]
    · rw [if_neg e3, if_neg e4, if_neg, if_neg]
      · exact fun h => e3 (hv.next_inj li I.ld0 (by rw [h, I.nd0]))
      · exact fun h => e4 (hv.next_inj li I.lc1 (by rw [h, I.nc1]))
  have vl : ∀ v, m'.vLive v ↔ m.vLive v ∧ v ≠ m.heVertex a0 := by
    intro v
    by_cases e : v = m.heVertex a0
    · refine iff_of_false (fun h => h.2 ?_) (fun h => h.2 e)
      rw [F.vh, if_pos e]
    · by_cases l : m.vLive v
      · refine iff_of_true ⟨by rw [q5]; exact l.1, ?_⟩ ⟨l, e⟩
        exact (V.live_lt_INV (S.vh_l v ((J.vlive v).2 l) (by rw [J.vert]; exact e)).1).ne
      · refine iff_of_false (fun h => l ⟨by rw [← q5]; exact h.1, ?_⟩) (fun h => l h.1)
        have := h.2
        rwa [S.vh_d v (fun h => l ((J.vlive v).1 h)), J.vh0 v l] at this
  have fl : ∀ f, m'.fLive f ↔ m.fLive f ∧ f ≠ m.heFace a0 ∧ f ≠ m.heFace b0 := by
    intro f
    rw [← J.flive]
    by_cases l : M.fLive f
    · refine iff_of_true ⟨by rw [q7, q8, q9, ← k7, ← k8, ← k9]; exact l.1, ?_⟩ l
      exact (V.live_lt_INV (S.fh_l f l).1).ne
    · refine iff_of_false (fun h => l ⟨by rw [k7, k8, k9, ← q7, ← q8, ← q9]; exact h.1, ?_⟩) l
      have := h.2
      rwa [S.fh_d f l] at this
  refine ⟨V, ?_, ?_, vl, by rw [I.tb]; exact fl, by rw [I.tb]; exact I.AB, ?_, by rw [I.tb]; exact fun i h1 h2 h3 => (face i h1 h2 h3).2,
    by rw [I.tb]; exact next, ext', cnt⟩
  · intro i hi xi
    obtain ⟨li, hD⟩ := (live' i).1 hi
    have key : ∀ j, m.heLive j → ¬ m.ext j → m.heFace j ≠ m.heFace a0 → m.heFace j ≠ m.heFace b0 →
        m'.heNext (m'.heNext (m'.heNext (m.colPlace a0 j))) = m.colPlace a0 j := by
      intro j lj xj f1 f2
      have l1 := hv.next_live _ lj
      have l2 := hv.next_live _ l1
      have f1' : ∀ k, m.heLive k → m.heFace k = m.heFace j → m.heFace (m.heNext k) = m.heFace j := by
        intro k lk h; rw [hv.face_next lk, h]
      rw [next j lj f1 f2, next _ l1 (by rw [f1' j lj rfl]; exact f1) (by rw [f1' j lj rfl]; exact f2),
        next _ l2 (by rw [f1' _ l1 (f1' j lj rfl)]; exact f1) (by rw [f1' _ l1 (f1' j lj rfl)]; exact f2), tri j lj xj]
    by_cases e1 : i = a1
    · have := key c2 I.lc2 I.xc I.fAC.symm I.fBC.symm
      rw [pl, if_pos rfl] at this; rw [e1]; exact this
    by_cases e2 : i = b2
    · have := key d1 I.ld1 I.xd I.fAD.symm I.fBD.symm
      rw [pl, if_neg d1c2, if_pos rfl] at this; rw [e2]; exact this
    · have := key i li (fun h => xi ((ext' i hi).2 h)) (fun h => by
          have := hv.tri_mem I.la0 li (by rw [I.na0, I.na1, I.na2]) h
          rw [I.na0, I.na1] at this
          rcases this with h | h | h
          · exact hD (Or.inl h)
          · exact e1 h
          · exact hD (Or.inr (Or.inr (Or.inl h)))) (fun h => by
          have := hv.tri_mem I.lb0 li (by rw [I.nb0, I.nb1, I.nb2]) h
          rw [I.nb0, I.nb1] at this
          rcases this with h | h | h
          · exact hD (Or.inr (Or.inl h))
          · exact hD (Or.inr (Or.inr (Or.inr (Or.inr (Or.inl h)))))
          · exact e2 h)
      rwa [pl, if_neg (fun h => hD (Or.inr (Or.inr (Or.inr (Or.inl h))))),
        if_neg (fun h => hD (Or.inr (Or.inr (Or.inr (Or.inr (Or.inr h))))))] at this
  · intro i
    rw [live', Ne, Ne, Ne, half_iff, half_iff, half_iff, I.na0, I.na1, I.tb, I.nb0, I.tc, I.td]
    clear * -
    tauto
  · intro i hi
    obtain ⟨li, hD⟩ := (live' i).1 hi
    rw [F.vert i li hD, I.tb]

theorem rimCollapsed_of {m : Mesh} (hv : m.Valid) (tri : m.TriMesh) {m' : Mesh} {a0 a1 a2 b0 c0 c1 c2 n p : ℕ}
    (I : Rim m a0 a1 a2 b0 c0 c1 c2 n p) (F : RimFin m m' a0 a1 a2 b0 c0 c1 c2 n p) : RimCollapsed m m' a0 := by
  obtain ⟨S1, S⟩ := rim_con hv I F
  obtain ⟨V1, ex1, h1, h2, h3⟩ := rem_valid hv S1
  obtain ⟨V, gx, g1, g2, g3, g4⟩ := con_valid V1 S
  have L1 := S1.live hv
  obtain ⟨q1, q2, q3, q4, q5, q6, q7, q8, q9, q10, q11, q12, q13, q14, q15⟩ := F.c
  have Mx : (m.remMesh c2 a2).ext b0 := by
    have n1 : b0 ≠ c2 := fun h => I.fBC (by rw [h])
    have n2 : b0 ≠ a2 := fun h => I.fAB (by rw [← I.fa2, ← h])
    exact (ex1 b0 I.lb0 n1 n2).2 I.xb
  have cnt : m'.nHe + 4 = m.nHe ∧ m'.nE + 2 = m.nE ∧ m'.nF + 1 = m.nF ∧ m'.nV + 1 = m.nV ∧ m'.nBL = m.nBL ∧
      m'.nInt + 3 = m.nInt := by
    have e1 : (m.remMesh c2 a2).nHe = m.nHe - 2 := rfl
    have e2 : (m.remMesh c2 a2).nE = m.nE - 1 := rfl
    have e3 : (m.remMesh c2 a2).nV = m.nV := rfl
    have e4 : (m.remMesh c2 a2).nInt = m.nInt - 2 := rfl
    rw [if_neg (not_lt.2 Mx), e4] at g4
    rw [e1] at g1; rw [e2] at g2; rw [e3] at g3
    clear * - h1 h2 h3 q10 q11 q12 q13 q14 q15 g1 g2 g3 g4
    omega
  have live' : ∀ i, m'.heLive i ↔ m.heLive i ∧ ¬ (i = a0 ∨ i = b0 ∨ i = a2 ∨ i = c2) := by
    intro i; rw [S.live V1, L1]; clear * -; tauto
  have ext' : ∀ i, m'.heLive i → (m'.ext i ↔ m.ext i) := by
    intro i hi
    obtain ⟨h1, h2, h3⟩ := (S.live V1 i).1 hi
    obtain ⟨l1, l2, l3⟩ := (L1 i).1 h1
    rw [gx i h1 h2 h3, ex1 i l1 l2 l3]
  have pl : ∀ i, m.rimPlace a0 i = if i = c2 then a1 else i := by
    intro i; unfold rimPlace; rw [I.na0, I.na1, I.tc]
  have c0c2 : c0 ≠ c2 := by have := hv.deg_two c2 I.lc2; rwa [I.nc2] at this
  have c0b0 : c0 ≠ b0 := fun h => I.fBC (by rw [← h, I.fc0])
  have c2b0 : c2 ≠ b0 := fun h => I.fBC (by rw [h])
  have nDa1 : ¬ (a1 = a0 ∨ a1 = b0 ∨ a1 = a2 ∨ a1 = c2) := by
    have p2 := hv.deg_two a1 I.la1
    have p1 := hv.deg_two a0 I.la0
    rw [I.na0] at p1; rw [I.na1] at p2
    rintro (h | h | h | h)
    · exact p1 h
    · exact I.fAB (by rw [← I.fa1, h])
    · exact p2 h.symm
    · exact I.fAC (by rw [← I.fa1, h])
  have nDi : ∀ i, m.heFace i ≠ m.heFace a0 → i ≠ b0 → i ≠ c2 → ¬ (i = a0 ∨ i = b0 ∨ i = a2 ∨ i = c2) := by
    intro i f1 f2 h1
    rintro (h | h | h | h)
    · exact f1 (by rw [h])
    · exact f2 h
    · exact f1 (by rw [h, I.fa2])
    · exact h1 h
  have nai : ∀ i, m.heFace i ≠ m.heFace a0 → i ≠ a1 := fun i h e => h (by rw [e, I.fa1])
  have face : ∀ i, m.heLive i → m.heFace i ≠ m.heFace a0 → i ≠ b0 → m'.heFace (m.rimPlace a0 i) = m.heFace i := by
    intro i li f1 f2
    rw [pl]
    by_cases e1 : i = c2
    · rw [if_pos e1, F.face _ nDa1, if_pos rfl, e1]
    · rw [if_neg e1, F.face _ (nDi i f1 f2 e1), if_neg (nai i f1)]
  have next : ∀ i, m.heLive i → m.heFace i ≠ m.heFace a0 → i ≠ b0 → m'.heNext (m.rimPlace a0 i) =
      if m.heNext i = b0 then m.heNext b0 else m.rimPlace a0 (m.heNext i) := by
    intro i li f1 f2
    rw [pl, pl]
    by_cases e1 : i = c2
    · rw [if_pos e1, e1, F.next _ nDa1, if_pos rfl, I.nc2, if_neg c0b0, if_neg c0c2]
    rw [if_neg e1, F.next _ (nDi i f1 f2 e1), if_neg (nai i f1)]
    by_cases e4 : i = c1
    · rw [if_pos e4, e4, I.nc1, if_neg c2b0, if_pos rfl]
    by_cases e3 : i = p
    · rw [if_neg e4, if_pos e3, e3, I.np, if_pos rfl, I.nb0]
    · rw [if_neg e4, if_neg e3, if_neg, if_neg]
      · exact fun h => e4 (hv.next_inj li I.lc1 (by rw [h, I.nc1]))
      · exact fun h => e3 (hv.next_inj li I.lp (by rw [h, I.np]))
  have vl : ∀ v, m'.vLive v ↔ m.vLive v ∧ v ≠ m.heVertex a0 := by
    intro v
    by_cases e : v = m.heVertex a0
    · refine iff_of_false (fun h => h.2 ?_) (fun h => h.2 e)
      rw [F.vh, if_pos e]
    · by_cases l : m.vLive v
      · refine iff_of_true ⟨by rw [q5]; exact l.1, ?_⟩ ⟨l, e⟩
        rw [F.vh, if_neg e]
        split_ifs
        · exact l.2
        · exact (hv.live_lt_INV I.lc0).ne
        · exact l.2
      · refine iff_of_false (fun h => l ⟨by rw [← q5]; exact h.1, ?_⟩) (fun h => l h.1)
        have := h.2
        rw [F.vh, if_neg e, if_neg (fun h : v = m.heVertex a2 => l (h ▸ hv.vertex_live _ I.la2)), ite_self] at this
        exact this
  have fl : ∀ f, m'.fLive f ↔ m.fLive f ∧ f ≠ m.heFace a0 := by
    intro f
    by_cases e : f = m.heFace a0
    · refine iff_of_false (fun h => h.2 ?_) (fun h => h.2 e)
      rw [F.fh, if_pos e]
    · by_cases l : m.fLive f
      · refine iff_of_true ⟨by rw [q7, q8, q9]; exact l.1, ?_⟩ ⟨l, e⟩
        rw [F.fh, if_neg e]
        split_ifs
        · exact (hv.live_lt_INV I.ln).ne
        · exact (hv.live_lt_INV I.lc0).ne
        · exact l.2
      · refine iff_of_false (fun h => l ⟨by rw [← q7, ← q8, ← q9]; exact h.1, ?_⟩) (fun h => l h.1)
        have := h.2
        rw [F.fh, if_neg e, if_neg (fun h : f = m.heFace b0 => l (h ▸ hv.face_live _ I.lb0)),
          if_neg (fun h : f = m.heFace c2 => l (h ▸ hv.face_live _ I.lc2))] at this
        exact this
  refine ⟨V, ?_, ?_, vl, fl, by rw [I.tb]; exact I.AB, ?_, by rw [I.tb]; exact face, by rw [I.tb]; exact next, ext', cnt⟩
  · intro i hi xi
    obtain ⟨li, hD⟩ := (live' i).1 hi
    have key : ∀ j, m.heLive j → ¬ m.ext j → m.heFace j ≠ m.heFace a0 →
        m'.heNext (m'.heNext (m'.heNext (m.rimPlace a0 j))) = m.rimPlace a0 j := by
      intro j lj xj f1
      have ne : ∀ k, m.heLive k → m.heFace k = m.heFace j → k ≠ b0 := by
        rintro k lk h rfl
        have := I.xb; unfold Mesh.ext at this xj; rw [h] at this; exact xj this
      have step : ∀ k, m.heLive k → m.heFace k = m.heFace j → m'.heNext (m.rimPlace a0 k) = m.rimPlace a0 (m.heNext k) := by
        intro k lk h
        rw [next k lk (by rw [h]; exact f1) (ne k lk h), if_neg]
        exact ne _ (hv.next_live _ lk) (by rw [hv.face_next lk, h])
      have l1 := hv.next_live _ lj
      have l2 := hv.next_live _ l1
      rw [step j lj rfl, step _ l1 (hv.face_next lj), step _ l2 (by rw [hv.face_next l1, hv.face_next lj]), tri j lj xj]
    by_cases e1 : i = a1
    · have := key c2 I.lc2 I.xc I.fAC.symm
      rw [pl, if_pos rfl] at this; rw [e1]; exact this
    · have := key i li (fun h => xi ((ext' i hi).2 h)) (fun h => by
          have := hv.tri_mem I.la0 li (by rw [I.na0, I.na1, I.na2]) h
          rw [I.na0, I.na1] at this
          rcases this with h | h | h
          · exact hD (Or.inl h)
          · exact e1 h
          · exact hD (Or.inr (Or.inr (Or.inl h))))
      rwa [pl, if_neg (fun h => hD (Or.inr (Or.inr (Or.inr h))))] at this
  · intro i
    rw [live', Ne, Ne, half_iff, half_iff, I.na0, I.na1, I.tb, I.tc]
    clear * -
    tauto
  · intro i hi
    obtain ⟨li, hD⟩ := (live' i).1 hi
    rw [F.vert i li hD, I.tb]

/-- **C13**, except at an edge whose first halfedge arrives at a vertex of degree one (`C13_fails_degree_one`) and at a
boundary loop of two edges (`C13_fails_loop2`). In detail: an edge with both ends, but not itself, on the boundary is refused; an
edge with another path of two edges between its ends (`Pinch`) is refused, and so is a boundary edge on a loop of three
edges; an inner edge whose inner end has degree less than three gives the exception; every other edge is collapsed. -/
theorem C13_partial (m : Mesh) (hv : m.Valid) (tri : m.TriMesh) (e : ℕ) (he : m.heLive (2 * e))
    (hd : m.heNext (2 * e) ≠ 2 * e + 1) (hl : m.ext (2 * e + 1) → m.heNext (m.heNext (2 * e + 1)) ≠ 2 * e + 1) :
    (¬ m.ext (2 * e + 1) ∧ m.OnBdy (m.heVertex (2 * e)) ∧ m.OnBdy (m.heVertex (2 * e + 1)) ∧
      m.collapseEdgeTriangular e = .ok (m, INV)) ∨
    (¬ m.ext (2 * e + 1) ∧ ∃ a0, (a0 = 2 * e ∨ a0 = 2 * e + 1) ∧ ¬ m.OnBdy (m.heVertex a0) ∧
      ((m.Pinch a0 ∧ m.collapseEdgeTriangular e = .ok (m, INV)) ∨
      (¬ m.Pinch a0 ∧ (∃ d, m.vDegree (m.heVertex a0) = .ok d ∧ d < 3) ∧ m.collapseEdgeTriangular e = .error .throw) ∨
      (¬ m.Pinch a0 ∧ (∃ d, m.vDegree (m.heVertex a0) = .ok d ∧ 3 ≤ d) ∧
        ∃ m', m.collapseEdgeTriangular e = .ok (m', m.heVertex (twin a0)) ∧ Collapsed m m' a0))) ∨
    (m.ext (2 * e + 1) ∧ ∃ d a0, m.vDegree (m.heVertex (2 * e)) = .ok d ∧
      a0 = (if d = 2 then m.heNext (m.heNext (2 * e)) else 2 * e) ∧ ¬ m.ext a0 ∧ m.ext (twin a0) ∧
      (((m.heNext (m.heNext (m.heNext (2 * e + 1))) = 2 * e + 1 ∨ m.Pinch a0) ∧ m.collapseEdgeTriangular e = .ok (m, INV)) ∨
      (m.heNext (m.heNext (m.heNext (2 * e + 1))) ≠ 2 * e + 1 ∧ ¬ m.Pinch a0 ∧
        ∃ m', m.collapseEdgeTriangular e = .ok (m', m.heVertex (twin a0)) ∧ RimCollapsed m m' a0))) := by
  have xh : ¬ m.ext (2 * e) := hv.edge_int e he
  have t0 : twin (2 * e) = 2 * e + 1 := twin_two_mul e
  have t1 : twin (2 * e + 1) = 2 * e := by rw [← t0, twin_twin]
  have lt : m.heLive (2 * e + 1) := t0 ▸ hv.twin_live _ he
  have ft : ∀ i, m.heLive i → ¬ m.ext i → m.fIsTriangle (m.heFace i) := by
    intro i li xi
    obtain ⟨l, fe⟩ := hv.f_he _ (hv.face_live _ li)
    refine (tri _ l ?_).symm
    unfold Mesh.ext at xi ⊢; rw [fe]; exact xi
  have be : m.eIsBoundary e ↔ m.ext (2 * e + 1) := by
    unfold eIsBoundary heIsInterior faceIsBL Mesh.ext
    rw [not_not]; show _ ≤ m.heFace (twin (2 * e)) ↔ _; rw [t0]
  have run : m.collapseEdgeTriangular e = if m.eIsBoundary e then m.collapseBdy (2 * e)
      else if m.vIsBoundary (m.heVertex (2 * e)) ∧ m.vIsBoundary (m.heVertex (2 * e + 1)) then .ok (m, INV)
      else m.collapseIntGo (if m.vIsBoundary (m.heVertex (2 * e)) then 2 * e + 1 else 2 * e) := by
    unfold collapseEdgeTriangular
    show (if ¬ m.fIsTriangle (m.heFace (2 * e)) then _ else if ¬ (m.eIsBoundary e ∨ m.fIsTriangle (m.heFace (twin (2 * e)))) then _ else
      if m.eIsBoundary e then m.collapseBdy (2 * e)
      else if m.vIsBoundary (m.heVertex (2 * e)) ∧ m.vIsBoundary (m.heVertex (twin (2 * e))) then .ok (m, INV)
      else m.collapseIntGo (if m.vIsBoundary (m.heVertex (2 * e)) then twin (2 * e) else 2 * e)) = _
    rw [t0, if_neg (not_not.2 (ft _ he xh)), if_neg]
    rw [not_not]
    by_cases b : m.eIsBoundary e
    · exact Or.inl b
    · exact Or.inr (ft _ lt (fun x => b (be.2 x)))
  by_cases xt : m.ext (2 * e + 1)
  · right; right
    refine ⟨xt, ?_⟩
    rw [if_pos (be.2 xt)] at run
    rw [run]
    obtain ⟨d, a0, h1, h2, la, xa, xb, h3⟩ := bdy_go hv tri he xh (by rw [t0]; exact xt) (by rw [t0]; exact hl xt)
    refine ⟨d, a0, h1, h2, xa, xb, ?_⟩
    rw [t0] at h3
    rcases h3 with ⟨h3, h4⟩ | ⟨h3, h4, m', a1, a2, b0, c0, c1, c2, n, p, I, F, h5⟩
    · exact Or.inl ⟨h3, h4⟩
    · exact Or.inr ⟨h3, h4, m', by rw [h5, I.tb], rimCollapsed_of hv tri I F⟩
  rw [if_neg (fun b => xt (be.1 b))] at run
  have bA := hv.bdy_iff (hv.vertex_live _ he)
  have bB := hv.bdy_iff (hv.vertex_live _ lt)
  by_cases c : m.vIsBoundary (m.heVertex (2 * e)) ∧ m.vIsBoundary (m.heVertex (2 * e + 1))
  · left
    rw [if_pos c] at run
    exact ⟨xt, bA.1 c.1, bB.1 c.2, run⟩
  right; left
  refine ⟨xt, ?_⟩
  rw [if_neg c] at run
  obtain ⟨a0, ha⟩ : ∃ a0, a0 = (if m.vIsBoundary (m.heVertex (2 * e)) then 2 * e + 1 else 2 * e) := ⟨_, rfl⟩
  rw [← ha] at run
  have key : (a0 = 2 * e ∨ a0 = 2 * e + 1) ∧ ¬ m.OnBdy (m.heVertex a0) ∧ m.heNext a0 ≠ twin a0 := by
    by_cases b : m.vIsBoundary (m.heVertex (2 * e))
    · rw [if_pos b] at ha
      rw [ha, t1]
      refine ⟨Or.inr rfl, fun h => c ⟨b, bB.2 h⟩, fun h => ?_⟩
      obtain ⟨i, li, vi, xi⟩ := bA.1 b
      have := hv.out_closed he (P := fun i => i = 2 * e) rfl (by rintro z rfl; rw [t0, h]) li vi
      exact xh (this ▸ xi)
    · rw [if_neg b] at ha
      rw [ha, t0]
      exact ⟨Or.inl rfl, fun h => b (bA.2 h), hd⟩
  obtain ⟨k1, k2, k3⟩ := key
  have la : m.heLive a0 := by rcases k1 with h | h <;> rw [h] <;> assumption
  have xa : ¬ m.ext a0 := by rcases k1 with h | h <;> rw [h] <;> assumption
  have xb : ¬ m.ext (twin a0) := by
    rcases k1 with h | h <;> rw [h]
    · rw [t0]; exact xt
    · rw [t1]; exact xh
  have inA : ∀ i, m.heLive i → m.heVertex i = m.heVertex a0 → ¬ m.ext i := fun i h1 h2 h3 => k2 ⟨i, h1, h2, h3⟩
  refine ⟨a0, k1, k2, ?_⟩
  rw [run]
  by_cases d2 : m.heNext (twin a0) = a0
  · obtain ⟨l, -, nd, mem, -, -, dg, -⟩ := C49_vertex_outgoing m hv _ (hv.vertex_live _ la)
    have le := length_le_of_sub (k := [a0]) nd (by
      intro i hi
      obtain ⟨h1, h2⟩ := (mem i).1 hi
      have := hv.out_closed la (P := fun i => i = a0) rfl (by rintro z rfl; exact d2) h1 h2
      simpa using this)
    have le : l.length ≤ 1 := le
    unfold collapseIntGo
    rcases isPinch_ok hv la with ⟨p1, p2⟩ | ⟨p1, p2⟩
    · left; exact ⟨p2, by rw [p1]⟩
    · right; left
      refine ⟨p2, ⟨_, dg, by omega⟩, ?_⟩
      rw [p1]; dsimp only
      rw [dg]; dsimp only
      rw [if_neg (by omega), if_neg (by omega)]
  rcases int_go hv tri la xa xb inA k3 d2 with h | ⟨h1, h2, h3⟩ |
    ⟨h1, d, h2, h3, m', a1, a2, b0, b1, b2, c0, c1, c2, d0, d1, d2, I, hc, F, h4⟩
  · exact Or.inl h
  · exact Or.inr (Or.inl ⟨h1, ⟨2, h2, by omega⟩, h3⟩)
  · exact Or.inr (Or.inr ⟨h1, ⟨d, h2, h3⟩, m', by rw [h4, I.tb], collapsed_of hv tri I hc F⟩)

/-- The octahedron. -/
def octa : Mesh := ofLists
  [2, 13, 4, 18, 0, 6, 8, 17, 5, 10, 12, 21, 9, 14, 1, 23, 3, 20, 16, 15, 7, 22, 11, 19]
  [0, 1, 1, 2, 2, 0, 2, 3, 3, 0, 3, 4, 4, 0, 4, 1, 5, 2, 1, 5, 5, 3, 5, 4]
  [0, 3, 0, 4, 0, 1, 1, 5, 1, 2, 2, 6, 2, 3, 3, 7, 4, 5, 4, 7, 5, 6, 6, 7] [0, 1, 3, 7, 11, 16]
  [0, 5, 9, 1, 3, 7, 11, 15] 8

theorem octa_valid : octa.Valid := valid_of_check (by decide +kernel)

/-- Four triangles around a vertex. -/
def fan4 : Mesh := ofLists [2, 15, 4, 6, 0, 13, 8, 1, 3, 10, 12, 7, 9, 14, 5, 11]
  [0, 1, 1, 4, 4, 0, 1, 2, 2, 4, 2, 3, 3, 4, 3, 0] [0, 4, 0, 1, 0, 3, 1, 4, 1, 2, 2, 4, 2, 3, 3, 4] [0, 6, 10, 14, 3]
  [0, 3, 9, 5, 1] 4

theorem fan4_valid : fan4.Valid := valid_of_check (by decide +kernel)

theorem triMesh_of {m : Mesh} (h : ∀ i < m.nHeFill, m.heFace i < m.nFFill → m.heNext (m.heNext (m.heNext i)) = i) :
    m.TriMesh := fun i li xi => h i li.1 (not_le.1 xi)

/-- The hypotheses of `C13_partial` are met by an edge of the octahedron and one of the tetrahedron, which are collapsed (a
tail of degree four and of degree three), by a boundary edge and an edge at the boundary of `fan4`, which are collapsed, and
by a boundary edge of `wheel`, which is refused. -/
example : (octa.Valid ∧ octa.TriMesh ∧ octa.heLive (2 * 0) ∧ octa.heNext (2 * 0) ≠ 2 * 0 + 1 ∧
      (octa.ext (2 * 0 + 1) → octa.heNext (octa.heNext (2 * 0 + 1)) ≠ 2 * 0 + 1) ∧
      ∃ m', octa.collapseEdgeTriangular 0 = .ok (m', 1)) ∧
    (tetra.Valid ∧ tetra.TriMesh ∧ tetra.heLive (2 * 0) ∧ tetra.heNext (2 * 0) ≠ 2 * 0 + 1 ∧
      (tetra.ext (2 * 0 + 1) → tetra.heNext (tetra.heNext (2 * 0 + 1)) ≠ 2 * 0 + 1) ∧
      ∃ m', tetra.collapseEdgeTriangular 0 = .ok (m', 1)) ∧
    (fan4.Valid ∧ fan4.TriMesh ∧ fan4.heLive (2 * 0) ∧ fan4.heNext (2 * 0) ≠ 2 * 0 + 1 ∧
      (fan4.ext (2 * 0 + 1) → fan4.heNext (fan4.heNext (2 * 0 + 1)) ≠ 2 * 0 + 1) ∧
      ∃ m', fan4.collapseEdgeTriangular 0 = .ok (m', 1)) ∧
    (fan4.heLive (2 * 1) ∧ fan4.heNext (2 * 1) ≠ 2 * 1 + 1 ∧
      (fan4.ext (2 * 1 + 1) → fan4.heNext (fan4.heNext (2 * 1 + 1)) ≠ 2 * 1 + 1) ∧
      ∃ m', fan4.collapseEdgeTriangular 1 = .ok (m', 1)) ∧
    (wheel.Valid ∧ wheel.TriMesh ∧ wheel.heLive (2 * 0) ∧ wheel.heNext (2 * 0) ≠ 2 * 0 + 1 ∧
      (wheel.ext (2 * 0 + 1) → wheel.heNext (wheel.heNext (2 * 0 + 1)) ≠ 2 * 0 + 1) ∧
      ∃ m', wheel.collapseEdgeTriangular 0 = .ok (m', INV)) :=
  ⟨⟨octa_valid, triMesh_of (by decide +kernel), by decide +kernel, by decide +kernel, by decide +kernel, _, rfl⟩,
    ⟨tetra_valid, triMesh_of (by decide +kernel), by decide +kernel, by decide +kernel, by decide +kernel, _, rfl⟩,
    ⟨fan4_valid, triMesh_of (by decide +kernel), by decide +kernel, by decide +kernel, by decide +kernel, _, rfl⟩,
    ⟨by decide +kernel, by decide +kernel, by decide +kernel, _, rfl⟩,
    ⟨wheel_valid, triMesh_of (by decide +kernel), by decide +kernel, by decide +kernel, by decide +kernel, _, rfl⟩⟩

/-- An edge to a vertex of degree one is not refused: the call returns a vertex and leaves a halfedge whose successor is
deleted. -/
theorem C13_fails_degree_one : ∃ m', pillowFlipped.collapseEdgeTriangular 2 = .ok (m', 0) ∧ m'.heLive 2 ∧
    m'.heNext 2 = 5 ∧ ¬ m'.heLive 5 ∧ m'.nE = 0 ∧ ¬ m'.Valid := by
  obtain ⟨m', h⟩ : ∃ m', pillowFlipped.collapseEdgeTriangular 2 = .ok (m', 0) := ⟨_, rfl⟩
  have hm : m' = (pillowFlipped.collapseEdgeTriangular 2).toOption.elim pillow Prod.fst := by rw [h]; rfl
  have h0 : m'.heLive 2 ∧ m'.heNext 2 = 5 ∧ ¬ m'.heLive 5 ∧ m'.nE = 0 := by rw [hm]; decide +kernel
  refine ⟨m', h, h0.1, h0.2.1, h0.2.2.1, h0.2.2.2, fun hv => h0.2.2.1 ?_⟩
  have := hv.next_live 2 h0.1
  rwa [h0.2.1] at this

/-- A disk of two triangles glued along two sides; the boundary loop has two edges. -/
def lens : Mesh := ofLists [2, 7, 4, 6, 0, 3, 5, 1] [0, 1, 1, 2, 2, 0, 1, 0] [0, 2, 0, 1, 0, 1, 1, 2] [0, 6, 4] [0, 6, 1] 2

theorem lens_valid : lens.Valid := valid_of_check (by decide +kernel)

/-- A boundary edge on a loop of two edges is not refused: the call returns a vertex and leaves a boundary loop of one
halfedge. -/
theorem C13_fails_loop2 : ∃ m', lens.collapseEdgeTriangular 0 = .ok (m', 1) ∧ m'.heLive 7 ∧ m'.heNext 7 = 7 ∧ ¬ m'.Valid := by
  obtain ⟨m', h⟩ : ∃ m', lens.collapseEdgeTriangular 0 = .ok (m', 1) := ⟨_, rfl⟩
  have hm : m' = (lens.collapseEdgeTriangular 0).toOption.elim pillow Prod.fst := by rw [h]; rfl
  have h0 : m'.heLive 7 ∧ m'.heNext 7 = 7 := by rw [hm]; decide +kernel
  exact ⟨m', h, h0.1, h0.2, fun hv => hv.deg_two 7 h0.1 h0.2⟩

/-- The full property fails. -/
theorem C13_statement_fails : ¬ C13_statement := by
  intro h
  obtain ⟨m', h1, -, -, h2⟩ := C13_fails_loop2
  rcases h lens lens_valid (triMesh_of (by decide +kernel)) 0 (by decide +kernel) with c | c | ⟨-, m1, a0, -, c, c'⟩ | ⟨-, m1, a0, -, c, c'⟩ <;>
    rw [h1] at c
  · injection c with c; injection c with c1 c2; exact absurd c2 (by decide)
  · cases c
  · injection c with c; injection c with c1 c2; exact h2 (c1 ▸ c'.valid)
  · injection c with c; injection c with c1 c2; exact h2 (c1 ▸ c'.valid)

end Mesh
end GC
