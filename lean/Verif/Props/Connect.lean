import Verif.MeshConnect
import Verif.Props.Flip

/-! # Properties C05 (connectVertices) and C20 (growth of the face storage) -/

namespace GC
open Mesh

/-- **C05.** For two distinct, non-adjacent halfedges `A`, `B` of one interior face of a valid mesh,
`connectVertices A B` runs out of memory (only when doubling the storage would exceed the index range,
`nearLimit`) or returns the new halfedge `m.nHeFill` with a valid mesh that
has one more edge and one more face. The new halfedge runs from the vertex of `A` to the vertex of `B` and
stays in the old face; its twin `m.nHeFill + 1` lies in the new face `m.nFFill`. The successor function is
the old one with the new edge spliced in before `A` and `B`; no vertex, and no face other than the one cut,
is affected (boundary loops may be renumbered by storage growth, interior faces keep their index). -/
theorem C05_connectVertices (m : Mesh) (hv : m.Valid) (A B : ℕ) (lA : m.heLive A) (lB : m.heLive B)
    (hf : m.heFace A = m.heFace B) (hint : m.heFace A < m.nFFill) (hAB : A ≠ B)
    (h1 : m.heNext A ≠ B) (h2 : m.heNext B ≠ A) :
    (m.connectVertices A B = .error .oom ∧ m.nearLimit 1) ∨
    ∃ m', m.connectVertices A B = .ok (m', m.nHeFill) ∧ m'.Valid ∧
      m'.nV = m.nV ∧ m'.nE = m.nE + 1 ∧ m'.nF = m.nF + 1 ∧ m'.nBL = m.nBL ∧ m'.nHe = m.nHe + 2 ∧
      m'.nFFill = m.nFFill + 1 ∧ m'.nHeFill = m.nHeFill + 2 ∧ m'.nVFill = m.nVFill ∧
      (∀ i, m.heLive i → m'.heFace i = m.nFFill → m.heFace i = m.heFace A) ∧
      (∀ i, m'.heLive i ↔ (m.heLive i ∨ i = m.nHeFill ∨ i = m.nHeFill + 1)) ∧
      -- the new edge
      m'.heVertex m.nHeFill = m.heVertex A ∧ m'.tip m.nHeFill = m.heVertex B ∧
      m'.heFace m.nHeFill = m.heFace A ∧ m'.heFace (m.nHeFill + 1) = m.nFFill ∧
      m'.heNext m.nHeFill = B ∧ m'.heNext (m.nHeFill + 1) = A ∧
      -- everything else
      (∀ i, m.heLive i → m'.heNext i =
        if m.heNext i = A then m.nHeFill else if m.heNext i = B then m.nHeFill + 1 else m.heNext i) ∧
      (∀ i, m.heLive i → m'.heVertex i = m.heVertex i) ∧ (∀ v, m'.vHalfedge v = m.vHalfedge v) ∧
      (∀ i, m.heLive i → m.heFace i < m.nFFill → m.heFace i ≠ m.heFace A → m'.heFace i = m.heFace i) ∧
      (∀ i, m.heLive i → m.heFace i = m.heFace A → m'.heFace i = m.heFace A ∨ m'.heFace i = m.nFFill) ∧
      (∀ i, m.heLive i → (m'.ext i ↔ m.ext i)) := by
  classical
  have hint' : ¬ m.ext A := by unfold ext; omega
  rcases conn_spec hv lA lB hf hint' hAB h1 h2 with h | ⟨m', pA, pB, h, hsv, S⟩
  · exact Or.inl h
  right
  have hval := conn_valid hsv S
  have F := connFacts hsv S
  have ltn := fun {i} (hi : m.heLive i) => F.lt (spare_heLive.2 hi)
  have hface := fun {i} (hi : m.heLive i) => conn_face hsv S (spare_heLive.2 hi)
  have hl0 : m'.heLive m.nHeFill := (F.hlive _).2 (Or.inl rfl)
  have orbA : ∀ {i}, m.heLive i → Orb (swapf m.spare.nx pA pB) A i → m.heFace i = m.heFace A := by
    intro i hi o
    have o' : Orb m.spare.nx A i := by
      refine (swapf_split_iff hsv.per_nx F.pne ?_ A i).2 (Or.inl o)
      rw [← hsv.face_nx_iff S.lpA S.lpB]
      have e1 := hsv.face_next S.lpA; have e2 := hsv.face_next S.lpB
      rw [S.npA] at e1; rw [S.npB] at e2
      rw [← e1, ← e2, S.fAB]
    rw [← hsv.face_nx_iff S.lA (spare_heLive.2 hi), spare_face_eq_iff lA hi] at o'
    exact o'.symm
  refine ⟨m', h, hval, by simpa using S.c_v, by simpa using S.c_e, by simpa using S.c_f, by simpa using S.c_bl,
    by simpa using S.c_he, by simpa using S.c_fFill, by simpa using S.c_heFill, by simpa using S.c_vFill, ?_, ?_, by simpa using S.v_n0, ?_, S.f_n0, S.f_n1, S.next_n0,
    S.next_n1, ?_, ?_, ?_, ?_, ?_, ?_⟩
  · intro i hi hh
    by_contra hne
    rw [hface hi, if_neg (fun o => hne (orbA hi o))] at hh
    by_cases e : m.spare.ext i
    · have := hsv.face_ext_region (spare_heLive.2 hi) e
      have := S.c_space
      simp only [spare_nBLFill, spare_nFFill] at *; omega
    · have := Valid.face_lt e; simp only [spare_nFFill] at this; omega
  · intro i; rw [F.hlive, spare_heLive]; tauto
  · unfold tip; rw [S.next_n0]
    have := S.v_o B (ltn lB).1 (ltn lB).2
    simpa using this
  · intro i hi
    obtain ⟨i0, i1⟩ := ltn hi
    by_cases c1 : m.heNext i = A
    · rw [if_pos c1]
      have : i = pA := by
        refine hsv.next_inj (spare_heLive.2 hi) S.lpA ?_
        rw [S.npA]; simpa using c1
      subst this; exact S.next_pA
    rw [if_neg c1]
    by_cases c2 : m.heNext i = B
    · rw [if_pos c2]
      have : i = pB := by
        refine hsv.next_inj (spare_heLive.2 hi) S.lpB ?_
        rw [S.npB]; simpa using c2
      subst this; exact S.next_pB
    rw [if_neg c2]
    have := S.next_o i i0 i1 (by rintro rfl; exact c1 (by simpa using S.npA))
      (by rintro rfl; exact c2 (by simpa using S.npB))
    simpa using this
  · intro i hi
    have := S.v_o i (ltn hi).1 (ltn hi).2
    simpa using this
  · intro v; rw [S.vh]; simp
  · intro i hi hif hne
    rw [hface hi, if_neg (fun o => hne (orbA hi o))]
    exact spare_heFace_int (by unfold ext; omega)
  · intro i hi hif
    rw [hface hi]
    split_ifs
    · exact Or.inr rfl
    · left; rw [← hif]; exact spare_heFace_int (by unfold ext; omega)
  · intro i hi
    have hh := hface hi
    have e1 : m'.nFFill = m.nFFill + 1 := by simpa using S.c_fFill
    by_cases o : Orb (swapf m.spare.nx pA pB) A i
    · rw [if_pos o] at hh
      have := orbA hi o
      unfold ext; omega
    · rw [if_neg o] at hh
      have sp : m.spare.ext i ↔ m.ext i := spare_ext
      rw [← sp]
      unfold ext
      rw [hh, e1, spare_nFFill]
      constructor
      · intro; omega
      · intro g
        have := hsv.face_ext_region (spare_heLive.2 hi) (by unfold ext; rw [spare_nFFill]; exact g)
        have := S.c_space
        rw [spare_nFFill] at this
        omega

/-- Every other request on live halfedges is refused with an exception (and no mesh is returned). -/
theorem C05_connectVertices_refused (m : Mesh) (hv : m.Valid) (A B : ℕ) (lA : m.heLive A) (lB : m.heLive B)
    (h : m.heFace A ≠ m.heFace B ∨ A = B ∨ m.heNext A = B ∨ m.heNext B = A) :
    m.connectVertices A B = .error .throw := by
  obtain ⟨pA, hpA, lpA, npA⟩ := hv.prevOrbitVertex_ok lA
  obtain ⟨pB, hpB, lpB, npB⟩ := hv.prevOrbitVertex_ok lB
  unfold connectVertices
  rw [hpA, hpB]
  simp only
  by_cases c1 : m.heFace A = m.heFace B
  · rw [if_neg (not_not.2 c1)]
    by_cases c2 : A ≠ pB ∧ pA ≠ B
    · rw [if_neg (not_not.2 c2)]
      rcases h with h | h | h | h
      · exact absurd c1 h
      · rw [if_pos h]
      · exact absurd (hv.next_inj lA lpB (h.trans npB.symm)) c2.1
      · exact absurd (hv.next_inj lB lpA (h.trans npA.symm)).symm c2.2
    · rw [if_pos c2]
  · rw [if_pos c1]

/-- A square: one 4-gon and its boundary loop. -/
def quad : Mesh := ofLists [2, 7, 4, 1, 6, 3, 0, 5] [0, 1, 1, 2, 2, 3, 3, 0] [0, 1, 0, 1, 0, 1, 0, 1]
  [0, 2, 4, 6] [0, 1] 1

theorem quad_valid : quad.Valid := valid_of_check (by decide +kernel)

/-- The hypotheses of `C05_connectVertices` are met by the diagonal of `quad`; here the face storage has
to grow and the boundary loop moves. -/
example : quad.Valid ∧ quad.heLive 0 ∧ quad.heLive 4 ∧ quad.heFace 0 = quad.heFace 4 ∧
    quad.heFace 0 < quad.nFFill ∧ quad.heNext 0 ≠ 4 ∧ quad.heNext 4 ≠ 0 ∧
    (∃ m', quad.connectVertices 0 4 = .ok (m', 8) ∧ m'.heFace 0 = 1 ∧ m'.heFace 4 = 0 ∧ m'.heFace 1 = 3) ∧
    quad.heNext 0 = 2 ∧ quad.connectVertices 0 2 = .error .throw :=
  ⟨quad_valid, by decide +kernel, by decide +kernel, by decide +kernel, by decide +kernel, by decide +kernel,
   by decide +kernel, ⟨_, rfl, by decide +kernel, by decide +kernel, by decide +kernel⟩, by decide +kernel, rfl⟩

/-- **C20, growth.** Doubling the face array of a valid mesh (when the doubled size still is an index)
leaves it valid: interior faces keep their index and halfedge, boundary loop `b` (counted from the back of
the array, as in `BoundaryLoop(b)`) keeps its number and halfedge, each halfedge stays in its face or loop,
and the new slots between faces and loops are free. -/
theorem C20_expandFaceStorage (m : Mesh) (hv : m.Valid) (hcap : m.nFCap * 2 < INV) :
    m.expandFaceStorage.Valid ∧
    m.expandFaceStorage.nFCap = 2 * m.nFCap ∧
    (∀ f, f < m.nFFill → m.expandFaceStorage.fHalfedge f = m.fHalfedge f) ∧
    (∀ b, b < m.nBLFill → m.expandFaceStorage.fHalfedge (m.expandFaceStorage.nFCap - 1 - b) =
      m.fHalfedge (m.nFCap - 1 - b)) ∧
    (∀ i, m.heLive i → m.heFace i < m.nFFill → m.expandFaceStorage.heFace i = m.heFace i) ∧
    (∀ i b, m.heLive i → b < m.nBLFill → m.heFace i = m.nFCap - 1 - b →
      m.expandFaceStorage.heFace i = m.expandFaceStorage.nFCap - 1 - b) ∧
    (∀ i, m.expandFaceStorage.heNext i = m.heNext i ∧ m.expandFaceStorage.heVertex i = m.heVertex i) ∧
    (∀ f, m.nFFill ≤ f → f < m.expandFaceStorage.nFCap - m.nBLFill → ¬ m.expandFaceStorage.fLive f) := by
  have hc := hv.f_cap
  have ecap : m.expandFaceStorage.nFCap = m.nFCap * 2 := rfl
  refine ⟨expand_valid hv hcap, by rw [ecap]; omega, ?_, ?_, ?_, ?_, fun i => ⟨rfl, rfl⟩, ?_⟩
  · intro f hf
    unfold expandFaceStorage; simp only
    rw [if_neg (by omega), if_neg (by omega)]
  · intro b hb
    rw [ecap]
    unfold expandFaceStorage; simp only
    rw [if_pos (by omega)]
    congr 1; omega
  · intro i hi hlt
    rw [expand_heFace hi]; unfold faceShift; rw [if_neg (by omega)]
  · intro i b hi hb he
    rw [expand_heFace hi, ecap]; unfold faceShift; rw [if_pos (by omega)]; omega
  · rintro f h1 h2 ⟨g | g, g'⟩
    · exact absurd g (by show ¬ f < m.nFFill; omega)
    · have : m.expandFaceStorage.nBLFill = m.nBLFill := rfl
      omega

/-- `square` has a face, a loop and no free slot: growing moves loop 0 from slot 2 to slot 5. -/
example : square.Valid ∧ square.nFCap * 2 < INV ∧ square.nFFill = 2 ∧ square.nFCap = 3 ∧
    square.expandFaceStorage.fHalfedge 5 = square.fHalfedge 2 :=
  ⟨square_valid, by decide +kernel, by decide +kernel, by decide +kernel, by decide +kernel⟩

/-- **C20, allocation.** On a valid mesh with at least one face slot, `getNewFace` runs out of memory or
hands out a slot that was free before and that no boundary loop occupies. -/
theorem C20_getNewFace_fresh (m : Mesh) (hv : m.Valid) (hpos : 0 < m.nFCap) :
    (m.getNewFace = .error .oom ∧ m.nearLimit 0) ∨
    ∃ m' , m.getNewFace = .ok (m', m.nFFill) ∧  m.nFFill < m'.nFCap - m'.nBLFill ∧
      (∀ i, m.heLive i → m'.heFace i ≠ m.nFFill) ∧
      (∀ i j, m.heLive i → m.heLive j → (m'.heFace i = m'.heFace j ↔ m.heFace i = m.heFace j)) ∧
      (∀ i, m.heLive i → m'.fHalfedge (m'.heFace i) = m.fHalfedge (m.heFace i)) ∧
      m'.nF = m.nF + 1 ∧ m'.nFFill = m.nFFill + 1 := by
  rcases getNewFace_ok hv.f_cap.1 hv.cnt_bl hpos hv.f_cap.2 with h | ⟨h, h1, h2⟩
  · exact Or.inl h
  right
  have hsv := spare_valid hv h1
  refine ⟨_, h, ?_, ?_, ?_, ?_, rfl, rfl⟩
  · simp only [spare_nBLFill]; omega
  · intro i hi
    simp only
    by_cases e : m.spare.ext i
    · have := hsv.face_ext_region (spare_heLive.2 hi) e
      simp only [spare_nBLFill] at this; omega
    · have := Valid.face_lt e; simp only [spare_nFFill] at this; omega
  · intro i j hi hj; simp only; exact spare_face_eq_iff hi hj
  · intro i hi
    simp only
    unfold spare
    split_ifs
    · rfl
    · rw [expand_heFace hi]; exact (expand_fLive hv (hv.face_live i hi)).2

example : square.Valid ∧ 0 < square.nFCap ∧
    (∃ m', square.getNewFace = .ok (m', 2) ∧ m'.nFCap = 6 ∧ m'.heFace 1 = 5) :=
  ⟨square_valid, by decide +kernel, ⟨_, rfl, by decide +kernel, by decide +kernel⟩⟩

end GC
