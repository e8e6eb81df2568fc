import Verif.MeshRemoveFace
import Verif.Props.SeparateEdge

/-! # Property C14: removeFaceAlongBoundary -/

namespace GC
namespace Mesh

/-- `b` is the only halfedge of an interior face that has a boundary loop on its other side. -/
structure OnlyBdy (m : Mesh) (b : ℕ) : Prop where
  live : m.heLive b
  int : ¬ m.ext b
  bdy : m.ext (twin b)
  only : ∀ i, m.heLive i → m.heFace i = m.heFace b → m.ext (twin i) → i = b

/-- New place of the halfedge `i`: the two halfedges of an edge whose first halfedge was in the removed face are
exchanged, so that the first halfedge is again the interior one. -/
def rfPlace (m : Mesh) (b i : ℕ) : ℕ := if m.heFace (2 * (i / 2)) = m.heFace b then twin i else i

/-- What `removeFaceAlongBoundary` is to do with the face of `b`: `m'` is a valid mesh in which the edge of `b` and the
face of `b` are gone, the remaining halfedges of the face belong to the boundary loop of `b`, and everything else is as
before; the counts are right. -/
structure FaceRemoved (m m' : Mesh) (b : ℕ) : Prop where
  valid : m'.Valid
  he : ∀ i, m'.heLive i ↔ m.heLive i ∧ i / 2 ≠ b / 2
  v : ∀ v, m'.vLive v ↔ m.vLive v
  f : ∀ g, m'.fLive g ↔ m.fLive g ∧ g ≠ m.heFace b
  vert : ∀ i, m.heLive i → i / 2 ≠ b / 2 → m'.heVertex (m.rfPlace b i) = m.heVertex i
  opened : ∀ i, m.heLive i → i / 2 ≠ b / 2 → m.heFace i = m.heFace b → m'.heFace (m.rfPlace b i) = m.heFace (twin b)
  kept : ∀ i, m.heLive i → i / 2 ≠ b / 2 → m.heFace i ≠ m.heFace b → m'.heFace (m.rfPlace b i) = m.heFace i
  next : ∀ i, m.heLive i → ¬ m.ext i → m.heFace i ≠ m.heFace b → m'.heNext (m.rfPlace b i) = m.rfPlace b (m.heNext i)
  ext : ∀ i, m.heLive i → i / 2 ≠ b / 2 → (m'.ext (m.rfPlace b i) ↔ m.ext i ∨ m.heFace i = m.heFace b)
  count : m'.nHe + 2 = m.nHe ∧ m'.nE + 1 = m.nE ∧ m'.nF + 1 = m.nF ∧ m'.nV = m.nV ∧ m'.nBL = m.nBL ∧
    m'.nInt + Nat.count (fun i => m.heNext i ≠ INV ∧ m.heFace i = m.heFace b) m.nHeFill = m.nInt

/-- The full property: at a face with one boundary edge the call refuses and changes nothing, if the corner before
the boundary edge is on the boundary, and else removes the face. -/
def C14_statement : Prop :=
  ∀ (m : Mesh), m.Valid → ∀ b, m.OnlyBdy b →
    m.removeFaceAlongBoundary (m.heFace b) = .ok (m, false) ∨
    ∃ m', m.removeFaceAlongBoundary (m.heFace b) = .ok (m', true) ∧ FaceRemoved m m' b

theorem rfPlace_exch {m : Mesh} (hv : m.Valid) {b : ℕ} {s : ℕ → Prop}
    (hs : ∀ i, s i ↔ m.heLive i ∧ m.heFace i = m.heFace b ∧ i ≠ b) {i : ℕ} (hi : m.heLive i) (hb : i / 2 ≠ b / 2) :
    exch s i = m.rfPlace b i := by
  unfold exch rfPlace
  have l2 : m.heLive (2 * (i / 2)) := by
    rcases two_div i with d | d <;> rw [d]
    · exact hi
    · exact hv.twin_live _ hi
  have n2 : 2 * (i / 2) ≠ b := fun h => hb (by rw [← h]; omega)
  by_cases c : m.heFace (2 * (i / 2)) = m.heFace b
  · rw [if_pos c, if_pos ((hs _).2 ⟨l2, c, n2⟩)]
  · rw [if_neg c, if_neg (fun h => c ((hs _).1 h).2.1)]

/-- **C14**, for faces whose corners away from the boundary edge are interior and occur once in the face, and have the
right stored halfedge except for the last of them, which the call repairs (`Corners`; in a triangle nothing but that the
opposite vertex is interior, see `C14_triangle_partial`). The call gives the mesh without the face, except that its count
of interior halfedges is the old one.

Missing from the full property, each refuted below: the count (`C14_fails_count`), polygons with a boundary vertex
or a wrong stored halfedge at another corner (`C14_fails_hourglass`, `C14_fails_polygon`). -/
theorem C14_partial (m : Mesh) (hv : m.Valid) (b : ℕ) (hb : m.OnlyBdy b) (hC : m.Corners b)
    (d3 : m.heNext (m.heNext b) ≠ b) :
    ∃ m', m.removeFaceAlongBoundary (m.heFace b) = .ok ({ m' with nInt := m.nInt }, true) ∧ FaceRemoved m m' b := by
  obtain ⟨m1, m', P, Q, R, s, run, S, Pnb, hw', Rn, hs⟩ := removeFace_run hv hb.live hb.int hb.bdy hb.only hC d3
  obtain ⟨hw, hlive, hext, hextt, vlive, flive, k2, k1, k0⟩ := rf_weak hv S hC hb.only Pnb
  obtain ⟨n1, n2, n3, n4, n5, n6, n7, n8, n9, n10, n11, n12, n13, n14, n15⟩ := Rn.counts
  have hlive2 : ∀ i, m1.heLive i ↔ m.heLive i ∧ i / 2 ≠ b / 2 := by
    intro i; rw [hlive, Ne, Ne, Ne, half_iff i b, not_or]
  have pl : ∀ i, m1.heLive i → exch s i = m.rfPlace b i := fun i hi =>
    rfPlace_exch hv hs ((hlive2 i).1 hi).1 ((hlive2 i).1 hi).2
  have ext1 : ∀ i, m1.heLive i → (m'.ext (exch s i) ↔ m1.ext i) := by
    intro i hi; unfold Mesh.ext; rw [Rn.face i hi, n12]
  have valid : m'.Valid := by
    refine hw'.valid fun e he => ?_
    rw [show eHalfedge e = 2 * e from rfl, Rn.live] at he
    rw [show eHalfedge e = 2 * e from rfl]
    obtain ⟨l0, l1, l2⟩ := (hlive _).1 he
    have lt := hw.twin_live _ he
    by_cases c : m.heFace (2 * e) = m.heFace b
    · have h1 : exch s (twin (2 * e)) = 2 * e := by
        rw [pl _ lt]; unfold rfPlace
        rw [twin_div, show 2 * (2 * e / 2) = 2 * e by omega, if_pos c, twin_twin]
      rw [← h1, ext1 _ lt]
      exact (hextt _ he c).2
    · have h1 : exch s (2 * e) = 2 * e := by
        rw [pl _ he]; unfold rfPlace
        rw [show 2 * (2 * e / 2) = 2 * e by omega, if_neg c]
      rw [← h1, ext1 _ he, hext _ he]
      rintro (h | h)
      · exact hv.edge_int e l0 h
      · exact c h
  obtain ⟨hs', -, nd, mem, -⟩ := hv.faceHalfedges_ok (hv.face_live b hb.live)
  have cdeg : Nat.count (fun i => m.heNext i ≠ INV ∧ m.heFace i = m.heFace b) m.nHeFill = hs'.length := by
    have := count_sub_list (p := fun _ => False) (q := fun i => m.heNext i ≠ INV ∧ m.heFace i = m.heFace b) (n := m.nHeFill)
      hs' nd (fun a ha => ⟨((mem a).1 ha).1.1, ((mem a).1 ha).1.2, ((mem a).1 ha).2⟩)
      (fun i hi => by
        simp only [false_iff, not_and, not_not]
        rintro ⟨h1, h2⟩; exact (mem i).2 ⟨⟨hi, h1⟩, h2⟩)
    rw [this]; simp
  have fb := Valid.face_lt hb.int
  have cint : Nat.count (fun i => m.heNext i ≠ INV ∧ m.heFace i < m.nFFill) m.nHeFill =
      Nat.count (fun i => m1.heNext i ≠ INV ∧ m1.heFace i < m1.nFFill) m.nHeFill + hs'.length := by
    refine count_sub_list hs' nd (fun a ha => ⟨((mem a).1 ha).1.1, ((mem a).1 ha).1.2, by rw [((mem a).1 ha).2]; exact fb⟩) ?_
    intro i hi
    by_cases h1 : m1.heNext i = INV
    · simp only [h1, ne_eq, not_true, false_and, false_iff]
      rintro ⟨⟨h2, h3⟩, h4⟩
      have : ¬ m1.heLive i := fun h => h.2 h1
      rw [hlive] at this
      have c : i = b ∨ i = twin b := by
        by_contra c; rw [not_or] at c; exact this ⟨⟨hi, h2⟩, c.1, c.2⟩
      rcases c with c | c
      · exact h4 ((mem i).2 ⟨⟨hi, h2⟩, by rw [c]⟩)
      · have := hb.bdy; unfold Mesh.ext at this; rw [← c] at this; omega
    · have l1 : m1.heLive i := ⟨by rw [S.c_heFill]; exact hi, h1⟩
      have l0 := ((hlive i).1 l1).1
      have x := hext i l1
      unfold Mesh.ext at x
      rw [mem]
      have := l0.2
      simp only [h1, ne_eq, not_false_eq_true, true_and, this, l0, not_and]
      omega
  refine ⟨m', run, valid, ?_, ?_, ?_, ?_, ?_, ?_, ?_, ?_, ?_⟩
  · intro i; rw [Rn.live, hlive2]
  · intro v; rw [Rn.vlive, vlive]
  · intro g; rw [Rn.flive, flive]
  · intro i hi h
    have l1 := (hlive2 i).2 ⟨hi, h⟩
    rw [← pl i l1, Rn.vert i l1, S.v_o i h]
  · intro i hi h hf
    have l1 := (hlive2 i).2 ⟨hi, h⟩
    rw [← pl i l1, Rn.face i l1, S.f_o i hi h, if_pos hf]
  · intro i hi h hf
    have l1 := (hlive2 i).2 ⟨hi, h⟩
    rw [← pl i l1, Rn.face i l1, S.f_o i hi h, if_neg hf]
  · intro i hi xi hf
    have h : i / 2 ≠ b / 2 := fun h => by
      rcases (half_iff i b).1 h with h | h
      · exact hf (by rw [h])
      · exact xi (h ▸ hb.bdy)
    have l1 := (hlive2 i).2 ⟨hi, h⟩
    have e1 : m1.heNext i = m.heNext i := by
      rw [S.next_o i h, if_neg, if_neg]
      · rintro rfl; exact hf (by rw [← S.nP, hv.face_next hi])
      · rintro rfl
        have := S.nQ
        have x := (hv.ext_next hi).1 (by rw [this]; exact hb.bdy)
        exact xi x
    rw [← pl i l1, Rn.next i l1, pl _ (hw.next_live _ l1), e1]
  · intro i hi h
    have l1 := (hlive2 i).2 ⟨hi, h⟩
    rw [← pl i l1, ext1 i l1, hext i l1]
  · refine ⟨?_, ?_, ?_, ?_, ?_, ?_⟩
    · rw [n1, S.c_he]; omega
    · rw [n8, S.c_e]; omega
    · rw [n11, S.c_f]; omega
    · rw [n5, S.c_v]
    · rw [n14, S.c_bl]
    · rw [n4, S.c_int, S.c_heFill, cdeg, hv.cnt_int, cint]

/-- What is refused: a face without boundary edge throws, a face with several boundary edges or whose corner
before the boundary edge is on the boundary is left alone. -/
theorem C14_refuses (m : Mesh) (hv : m.Valid) (f : ℕ) (hf : m.fLive f) :
    ((∀ i, m.heLive i → m.heFace i = f → ¬ m.ext (twin i)) → m.removeFaceAlongBoundary f = .error .throw) ∧
    ((∃ i j, m.heLive i ∧ m.heLive j ∧ i ≠ j ∧ m.heFace i = f ∧ m.heFace j = f ∧ m.ext (twin i) ∧ m.ext (twin j)) →
      m.removeFaceAlongBoundary f = .ok (m, false)) ∧
    (∀ b, m.OnlyBdy b → m.heFace b = f → (∀ p, m.heLive p → m.heNext p = b → m.OnBdy (m.heVertex p)) →
      m.removeFaceAlongBoundary f = .ok (m, false)) := by
  obtain ⟨hs, hhs, nd, mem, -⟩ := hv.faceHalfedges_ok hf
  have hi : ∀ x, (¬ m.heIsInterior (twin x)) ↔ m.ext (twin x) := by
    intro x; unfold heIsInterior faceIsBL Mesh.ext; exact not_not
  have fm : ∀ x, x ∈ hs.filter (fun h => ¬ m.heIsInterior (twin h)) ↔ (m.heLive x ∧ m.heFace x = f) ∧ m.ext (twin x) := by
    intro x; rw [List.mem_filter, mem, decide_eq_true_iff, hi]
  have ndf := nd.filter (fun h => ¬ m.heIsInterior (twin h))
  refine ⟨fun h => ?_, fun h => ?_, fun b hb hbf h => ?_⟩
  · have : hs.filter (fun h => ¬ m.heIsInterior (twin h)) = [] := by
      rw [List.eq_nil_iff_forall_not_mem]
      intro x hx
      obtain ⟨⟨a, c⟩, d⟩ := (fm x).1 hx
      exact h x a c d
    unfold removeFaceAlongBoundary
    rw [hhs]; simp only
    rw [this]
  · obtain ⟨i, j, li, lj, ne, fi, fj, xi, xj⟩ := h
    have mi := (fm i).2 ⟨⟨li, fi⟩, xi⟩
    have mj := (fm j).2 ⟨⟨lj, fj⟩, xj⟩
    unfold removeFaceAlongBoundary
    rw [hhs]; simp only
    generalize hs.filter (fun h => ¬ m.heIsInterior (twin h)) = l at *
    match l, mi, mj with
    | [x], mi, mj => simp at mi mj; exact absurd (mi.trans mj.symm) ne
    | x :: y :: t, _, _ => rfl
  · have : hs.filter (fun h => ¬ m.heIsInterior (twin h)) = [b] := by
      refine filter_single nd ((mem b).2 ⟨hb.live, hbf⟩) ?_
      intro x hx
      rw [decide_eq_true_iff, hi]
      constructor
      · exact fun c => hb.only x ((mem x).1 hx).1 (((mem x).1 hx).2.trans hbf.symm) c
      · rintro rfl; exact hb.bdy
    obtain ⟨P, hP, lP, nP⟩ := hv.prevOrbitFace_ok hb.live
    obtain ⟨Q, hQ, -, -⟩ := hv.prevOrbitVertex_ok (hv.twin_live _ hb.live)
    unfold removeFaceAlongBoundary
    rw [hhs]; simp only
    rw [this]; simp only
    unfold removeFaceOne
    rw [hP]; simp only
    rw [hQ]; simp only
    rw [if_pos ((hv.bdy_iff (hv.vertex_live _ lP)).2 (h P lP nP))]

/-- **C14**, for triangles. -/
theorem C14_triangle_partial (m : Mesh) (hv : m.Valid) (b : ℕ) (hb : m.OnlyBdy b)
    (tri : m.heNext (m.heNext (m.heNext b)) = b) :
    (m.OnBdy (m.heVertex (m.heNext (m.heNext b))) ∧ m.removeFaceAlongBoundary (m.heFace b) = .ok (m, false)) ∨
    (¬ m.OnBdy (m.heVertex (m.heNext (m.heNext b))) ∧
      ∃ m', m.removeFaceAlongBoundary (m.heFace b) = .ok ({ m' with nInt := m.nInt }, true) ∧ FaceRemoved m m' b) := by
  have lb := hb.live
  have l1 := hv.next_live _ lb
  have l2 := hv.next_live _ l1
  by_cases c : m.OnBdy (m.heVertex (m.heNext (m.heNext b)))
  · left
    refine ⟨c, (C14_refuses m hv _ (hv.face_live b lb)).2.2 b hb rfl ?_⟩
    intro p lp np
    rw [hv.next_inj lp l2 (np.trans tri.symm)]; exact c
  · right
    refine ⟨c, ?_⟩
    have d3 : m.heNext (m.heNext b) ≠ b := by
      intro h; rw [h] at tri; exact hv.deg_two b lb tri
    refine C14_partial m hv b hb ?_ d3
    have tris : ∀ i, m.heLive i → m.heFace i = m.heFace b → i = b ∨ i = m.heNext b ∨ i = m.heNext (m.heNext b) := by
      intro i hi fi
      have o := (hv.face_iff b i lb hi).1 fi.symm
      refine o.mem (fun i => i = b ∨ i = m.heNext b ∨ i = m.heNext (m.heNext b)) (Or.inl rfl) ?_
      rintro z (h | h | h) <;> rw [h]
      · exact Or.inr (Or.inl rfl)
      · exact Or.inr (Or.inr rfl)
      · exact Or.inl tri
    have lT := hv.twin_live _ lb
    intro i hi fi ib inb
    have i2 : i = m.heNext (m.heNext b) := ((tris i hi fi).resolve_left ib).resolve_left inb
    subst i2
    refine ⟨fun j lj ej xj => c ⟨j, lj, ej, xj⟩, ?_, fun h => absurd tri h⟩
    intro j lj fj ej
    rcases tris j lj fj with h | h | h
    · exfalso; apply c
      exact ⟨_, hv.next_live _ lT, by rw [hv.vertex_next lT, twin_twin, ← ej, h], (hv.ext_next lT).2 hb.bdy⟩
    · exfalso; apply c
      exact ⟨_, lT, by rw [← ej, h, hv.vertex_next lb], hb.bdy⟩
    · exact h

/-- In `wheel` the triangle 0 has the only boundary halfedge 0 and an interior opposite vertex; in `square`
the triangles have two boundary edges. -/
example : wheel.Valid ∧ wheel.OnlyBdy 0 ∧ wheel.heNext (wheel.heNext (wheel.heNext 0)) = 0 ∧
    ¬ wheel.OnBdy (wheel.heVertex (wheel.heNext (wheel.heNext 0))) := by
  refine ⟨wheel_valid, ⟨by decide +kernel, by decide +kernel, by decide +kernel, ?_⟩, by decide +kernel, ?_⟩
  · have h : ∀ i < 12, wheel.heFace i = wheel.heFace 0 → wheel.ext (twin i) → i = 0 := by decide +kernel
    exact fun i hi => h i (lt_of_live hi rfl)
  · have h : ∀ i < 12, wheel.heVertex i = wheel.heVertex (wheel.heNext (wheel.heNext 0)) → ¬ wheel.ext i := by decide +kernel
    rintro ⟨i, hi, e, x⟩; exact h i (lt_of_live hi rfl) e x

/-- A box without lid, of five quadrilaterals: bottom 4567, sides 5401, 6512, 7623, 4730. -/
def openBox : Mesh := ofLists
  [2, 8, 4, 13, 6, 17, 0, 21, 10, 7, 12, 23, 1, 14, 16, 11, 3, 18, 20, 15, 5, 22, 9, 19]
  [4, 5, 5, 6, 6, 7, 7, 4, 4, 0, 0, 1, 1, 5, 1, 2, 2, 6, 2, 3, 3, 7, 3, 0]
  [0, 1, 0, 2, 0, 3, 0, 4, 1, 4, 1, 5, 1, 2, 2, 5, 2, 3, 3, 5, 3, 4, 4, 5]
  [10, 14, 18, 22, 0, 1, 17, 5] [0, 1, 3, 5, 7, 11] 5

theorem openBox_valid : openBox.Valid := valid_of_check (by decide +kernel)

theorem openBox_only (b : ℕ) (hb : b = 14 ∨ b = 22) : openBox.OnlyBdy b := by
  have h : ∀ b < 24, b = 14 ∨ b = 22 → ∀ i < 24, openBox.heFace i = openBox.heFace b → openBox.ext (twin i) → i = b := by
    decide +kernel
  have hb2 : b < 24 := by omega
  refine ⟨?_, ?_, ?_, fun i hi => h b hb2 hb i (lt_of_live hi rfl)⟩ <;> rcases hb with rfl | rfl <;> decide +kernel

/-- The side 6512 of the box meets the hypotheses of `C14_partial`. -/
example : openBox.Valid ∧ openBox.OnlyBdy 14 ∧ openBox.Corners 14 ∧ openBox.heNext (openBox.heNext 14) ≠ 14 := by
  refine ⟨openBox_valid, openBox_only 14 (Or.inl rfl), ?_, by decide +kernel⟩
  have h1 : ∀ i < 24, ∀ j < 24, openBox.heFace i = openBox.heFace 14 ∧ i ≠ 14 ∧ i ≠ openBox.heNext 14 →
      openBox.heVertex j = openBox.heVertex i → ¬ openBox.ext j := by decide +kernel
  have h2 : ∀ i < 24, ∀ j < 24, openBox.heFace i = openBox.heFace 14 ∧ i ≠ 14 ∧ i ≠ openBox.heNext 14 →
      openBox.heFace j = openBox.heFace 14 ∧ openBox.heVertex j = openBox.heVertex i → j = i := by decide +kernel
  have h3 : ∀ i < 24, openBox.heFace i = openBox.heFace 14 → i ≠ 14 → i ≠ openBox.heNext 14 → openBox.heNext i ≠ 14 →
      openBox.heNext (twin (openBox.vHalfedge (openBox.heVertex i))) = i := by decide +kernel
  intro i hi fi a c
  have li := lt_of_live hi rfl
  exact ⟨fun j hj => h1 i li j (lt_of_live hj rfl) ⟨fi, a, c⟩,
    fun j hj fj ej => h2 i li j (lt_of_live hj rfl) ⟨fi, a, c⟩ ⟨fj, ej⟩, h3 i li fi a c⟩

/-- **C14, failure of the count.** Whenever the call succeeds in the situation of `C14_partial`, the count of interior
halfedges is not lowered, though the face had halfedges: the mesh is not valid. -/
theorem C14_fails_count (m : Mesh) (hv : m.Valid) (b : ℕ) (hb : m.OnlyBdy b) (hC : m.Corners b)
    (d3 : m.heNext (m.heNext b) ≠ b) :
    ∃ m', m.removeFaceAlongBoundary (m.heFace b) = .ok (m', true) ∧ m'.nInt = m.nInt ∧ ¬ m'.Valid ∧
      m'.nInt = Nat.count (fun i => m'.heNext i ≠ INV ∧ m'.heFace i < m'.nFFill) m'.nHeFill +
        Nat.count (fun i => m.heNext i ≠ INV ∧ m.heFace i = m.heFace b) m.nHeFill := by
  obtain ⟨m', h1, h2⟩ := C14_partial m hv b hb hC d3
  have hc := h2.valid.cnt_int
  have hd := h2.count.2.2.2.2.2
  have hpos : 0 < Nat.count (fun i => m.heNext i ≠ INV ∧ m.heFace i = m.heFace b) m.nHeFill :=
    Nat.pos_of_ne_zero fun h => by
      have := Nat.count_monotone (fun i => m.heNext i ≠ INV ∧ m.heFace i = m.heFace b) (show b + 1 ≤ m.nHeFill from hb.live.1)
      rw [Nat.count_succ, if_pos ⟨hb.live.2, rfl⟩] at this
      omega
  refine ⟨_, h1, rfl, fun hv' => ?_, ?_⟩
  · have := hv'.cnt_int
    change m.nInt = Nat.count (fun i => m'.heNext i ≠ INV ∧ m'.heFace i < m'.nFFill) m'.nHeFill at this
    omega
  · show m.nInt = Nat.count (fun i => m'.heNext i ≠ INV ∧ m'.heFace i < m'.nFFill) m'.nHeFill + _
    omega

/-- **C14, failure at polygons: stored halfedge.** The side 4730 of the box. Both bottom corners become boundary
vertices. The one before the boundary edge, 7, gets a stored halfedge that starts along the boundary. The other one, 4,
gets it only if the edge 04 before it has to be switched, which is not so here: `Vertex::isBoundary` denies that vertex 4
is on the boundary. -/
theorem C14_fails_polygon : ∃ (m : Mesh) (b : ℕ) (m' : Mesh), m.Valid ∧ m.OnlyBdy b ∧
    m.removeFaceAlongBoundary (m.heFace b) = .ok (m', true) ∧ m'.heVertex 7 = 4 ∧ m'.ext 7 ∧ ¬ m'.vIsBoundary 4 ∧
    ∀ k, ¬ ({ m' with nInt := k } : Mesh).Valid := by
  obtain ⟨m', h⟩ : ∃ m', openBox.removeFaceAlongBoundary (openBox.heFace 22) = .ok (m', true) := ⟨_, rfl⟩
  have hm : m' = (openBox.removeFaceAlongBoundary 4).toOption.elim pillow Prod.fst := by
    have h' : openBox.removeFaceAlongBoundary 4 = .ok (m', true) := h
    rw [h']; rfl
  have h0 : m'.heLive 7 ∧ m'.ext 7 ∧ ¬ m'.ext (twin (m'.vHalfedge (m'.heVertex 7))) := by rw [hm]; decide +kernel
  refine ⟨openBox, 22, m', openBox_valid, openBox_only 22 (Or.inr rfl), h, by rw [hm]; decide +kernel,
    by rw [hm]; decide +kernel, by rw [hm]; decide +kernel, fun k hv => ?_⟩
  exact h0.2.2 (hv.bdy_first 7 h0.1 h0.2.1)

/-- The box with a bottom of seven sides, which leaves a triangular hole 598 at vertex 5. -/
def holedBox : Mesh := ofLists
  [2, 19, 4, 23, 6, 27, 8, 14, 10, 13, 12, 9, 0, 11, 16, 5, 18, 29, 7, 20, 22, 17, 1, 24, 26, 21, 3, 28, 15, 25]
  [5, 6, 6, 7, 7, 4, 4, 5, 5, 8, 8, 9, 9, 5, 4, 0, 0, 1, 1, 5, 1, 2, 2, 6, 2, 3, 3, 7, 3, 0]
  [0, 2, 0, 3, 0, 4, 0, 1, 0, 5, 0, 5, 0, 5, 1, 4, 1, 6, 1, 2, 2, 6, 2, 3, 3, 6, 3, 4, 4, 6]
  [16, 20, 24, 28, 5, 8, 1, 3, 10, 12] [0, 7, 1, 3, 5, 9, 17] 5

theorem holedBox_valid : holedBox.Valid := valid_of_check (by decide +kernel)

/-- **C14, failure at polygons: hourglass.** The side 5401 of the box whose bottom has a hole at vertex 5. The call tests
only the corner before the boundary edge and joins two boundaries at vertex 5. -/
theorem C14_fails_hourglass : ∃ (m : Mesh) (b : ℕ) (m' : Mesh), m.Valid ∧ m.OnlyBdy b ∧
    m.removeFaceAlongBoundary (m.heFace b) = .ok (m', true) ∧ m'.heVertex 7 = m'.heVertex 13 ∧ m'.ext 7 ∧ m'.ext 13 ∧
    ∀ k, ¬ ({ m' with nInt := k } : Mesh).Valid := by
  obtain ⟨m', h⟩ : ∃ m', holedBox.removeFaceAlongBoundary (holedBox.heFace 16) = .ok (m', true) := ⟨_, rfl⟩
  have hm : m' = (holedBox.removeFaceAlongBoundary 1).toOption.elim pillow Prod.fst := by
    have h' : holedBox.removeFaceAlongBoundary 1 = .ok (m', true) := h
    rw [h']; rfl
  have ho : holedBox.OnlyBdy 16 := by
    have h : ∀ i < 30, holedBox.heFace i = holedBox.heFace 16 → holedBox.ext (twin i) → i = 16 := by decide +kernel
    exact ⟨by decide +kernel, by decide +kernel, by decide +kernel, fun i hi => h i (lt_of_live hi rfl)⟩
  have h0 : m'.heLive 7 ∧ m'.heLive 13 ∧ m'.ext 7 ∧ m'.ext 13 ∧ m'.heVertex 7 = m'.heVertex 13 := by rw [hm]; decide +kernel
  refine ⟨holedBox, 16, m', holedBox_valid, ho, h, h0.2.2.2.2, h0.2.2.1, h0.2.2.2.1, fun k hv => ?_⟩
  exact absurd (hv.bdy_unique 7 13 h0.1 h0.2.1 h0.2.2.1 h0.2.2.2.1 h0.2.2.2.2) (by decide)

/-- The full property is false. -/
theorem C14_statement_fails : ¬ C14_statement := by
  intro h
  obtain ⟨m, b, m', hv, hb, run, -, -, -, hn⟩ := C14_fails_polygon
  rcases h m hv b hb with h1 | ⟨m2, h1, h2⟩
  · rw [run] at h1; simp at h1
  · rw [run] at h1
    simp only [Except.ok.injEq, Prod.mk.injEq, and_true] at h1
    subst h1
    exact hn m'.nInt h2.valid

end Mesh
end GC
