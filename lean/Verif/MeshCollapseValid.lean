import Verif.MeshCollapse
import Verif.Props.Nav
import Verif.Props.SeparateEdge

/-! # collapseEdgeTriangular (helper lemmas) -/

namespace GC
namespace Mesh

/-- `m` without the edge of `A`; the face of its twin is merged into the face of `A`. -/
def remMesh (m : Mesh) (A B : ℕ) : Mesh :=
  { m with
    heNext := fun i => if i = A ∨ i = B then INV else if m.heLive i then
      (if m.heNext i = A then m.heNext B else if m.heNext i = B then m.heNext A else m.heNext i) else m.heNext i,
    heFace := fun i => if m.heFace i = m.heFace B then m.heFace A else m.heFace i,
    vHalfedge := fun v => if m.vLive v then
      (if m.vHalfedge v = A then m.heNext B else if m.vHalfedge v = B then m.heNext A else m.vHalfedge v) else m.vHalfedge v,
    fHalfedge := fun f => if f = m.heFace B then INV else if f = m.heFace A then m.heNext A else m.fHalfedge f,
    nHe := m.nHe - 2, nInt := m.nInt - 2, nE := m.nE - 1, nF := m.nF - 1 }

theorem remMesh_spec {m : Mesh} (hv : m.Valid) {A B : ℕ} (lA : m.heLive A) (hB : B = twin A) (fne : m.heFace A ≠ m.heFace B)
    (iA : ¬ m.ext A) (iB : ¬ m.ext B) : RemSpec m (m.remMesh A B) A B where
  lA := lA
  hB := hB
  fne := fne
  iA := iA
  iB := iB
  next_A := by simp [remMesh]
  next_B := by simp [remMesh]
  next_o := by intro i hi h1 h2; simp [remMesh, hi, h1, h2]
  next_dead := by
    intro i hi
    have lB : m.heLive B := by rw [hB]; exact hv.twin_live _ lA
    have h1 : i ≠ A := fun h => hi (h ▸ lA)
    have h2 : i ≠ B := fun h => hi (h ▸ lB)
    simp [remMesh, hi, h1, h2]
  v_o := by intro i _ _ _; rfl
  f_o := by intro i _ _ _; rfl
  vh_o := by
    intro v h
    by_cases c : m.vLive v
    · simp only [c, true_and, not_or] at h
      simp [remMesh, c, h.1, h.2]
    · simp [remMesh, c]
  vh_e := by
    intro v c h
    have lB : m.heLive B := by rw [hB]; exact hv.twin_live _ lA
    have e := (hv.v_he v c).2
    rcases h with h | h
    · have e1 : (m.remMesh A B).vHalfedge v = m.heNext B := by simp [remMesh, c, h]
      rw [e1]
      refine ⟨Or.inr rfl, ?_⟩
      rw [hv.vertex_next lB, hB, twin_twin, ← h, e]
    · have e1 : (m.remMesh A B).vHalfedge v = m.heNext A := by
        have : B ≠ A := by rw [hB]; exact twin_ne A
        simp [remMesh, c, h, this]
      rw [e1]
      refine ⟨Or.inl rfl, ?_⟩
      rw [hv.vertex_next lA, ← hB, ← h, e]
  fh := by intro f; rfl
  c_heFill := rfl
  c_heCap := rfl
  c_eFill := rfl
  c_eCap := rfl
  c_vFill := rfl
  c_vCap := rfl
  c_fFill := rfl
  c_fCap := rfl
  c_blFill := rfl
  c_he := rfl
  c_int := rfl
  c_e := rfl
  c_v := rfl
  c_f := rfl
  c_bl := rfl

/-- There is a path of two edges from the tip of `a0` to its tail which is not around one of the two triangles. -/
def Pinch (m : Mesh) (a0 : ℕ) : Prop :=
  ∃ x y, m.heLive x ∧ m.heLive y ∧ m.heVertex x = m.heVertex (twin a0) ∧ m.heVertex y = m.heVertex (twin x) ∧
    m.heVertex (twin y) = m.heVertex a0 ∧ ¬ (x = m.heNext a0 ∧ y = m.heNext (m.heNext a0)) ∧
    ¬ (m.heNext (twin x) = twin a0 ∧ m.heNext (twin y) = twin x)

theorem isPinch_ok {m : Mesh} (hv : m.Valid) {a0 : ℕ} (la : m.heLive a0) :
    (m.isPinch a0 = .ok true ∧ m.Pinch a0) ∨ (m.isPinch a0 = .ok false ∧ ¬ m.Pinch a0) := by
  have tipe : ∀ {i}, m.heLive i → m.tip i = m.heVertex (twin i) := fun hi => hv.vertex_next hi
  have test : ∀ x y, m.heLive x → m.heLive y → (m.pinchTest a0 x y = true ↔ m.heVertex (twin y) = m.heVertex a0 ∧
      ¬ (x = m.heNext a0 ∧ y = m.heNext (m.heNext a0)) ∧ ¬ (m.heNext (twin x) = twin a0 ∧ m.heNext (twin y) = twin x)) := by
    intro x y lx ly
    unfold pinchTest
    rw [decide_eq_true_iff, tipe ly]
    have e1 : (m.heNext a0 = x ∧ m.heNext x = y) ↔ (x = m.heNext a0 ∧ y = m.heNext (m.heNext a0)) := by
      constructor
      · rintro ⟨h1, h2⟩; exact ⟨h1.symm, by rw [h1, h2]⟩
      · rintro ⟨h1, h2⟩; exact ⟨h1.symm, by rw [h2, h1]⟩
    rw [e1, twin_eq_iff, twin_eq_iff]
    tauto
  have loop : ∀ l : List ℕ, (∀ x ∈ l, m.heLive x) →
      (m.pinchLoop a0 l = .ok true ∧ ∃ x ∈ l, ∃ y, m.heLive y ∧ m.heVertex y = m.heVertex (twin x) ∧ m.pinchTest a0 x y = true) ∨
      (m.pinchLoop a0 l = .ok false ∧
        ¬ ∃ x ∈ l, ∃ y, m.heLive y ∧ m.heVertex y = m.heVertex (twin x) ∧ m.pinchTest a0 x y = true) := by
    intro l
    induction l with
    | nil => intro _; exact .inr ⟨rfl, by simp⟩
    | cons x t ih =>
      intro hl
      have lx := hl x (by simp)
      obtain ⟨o, ho, -, mem, -⟩ := hv.outgoingHalfedges_ok (hv.vertex_live _ (hv.twin_live _ lx))
      unfold pinchLoop
      rw [tipe lx, ho]
      simp only
      by_cases c : o.any (m.pinchTest a0 x) = true
      · rw [if_pos c]
        rw [List.any_eq_true] at c
        obtain ⟨y, hy, hty⟩ := c
        obtain ⟨ly, vy⟩ := (mem y).1 hy
        exact .inl ⟨rfl, x, by simp, y, ly, vy, hty⟩
      · rw [if_neg c]
        have nx : ¬ ∃ y, m.heLive y ∧ m.heVertex y = m.heVertex (twin x) ∧ m.pinchTest a0 x y = true := by
          rintro ⟨y, ly, vy, hty⟩
          exact c (List.any_eq_true.2 ⟨y, (mem y).2 ⟨ly, vy⟩, hty⟩)
        rcases ih (fun z hz => hl z (List.mem_cons_of_mem _ hz)) with ⟨h1, z, hz, h2⟩ | ⟨h1, h2⟩
        · exact .inl ⟨h1, z, List.mem_cons_of_mem _ hz, h2⟩
        · refine .inr ⟨h1, ?_⟩
          rintro ⟨z, hz, h3⟩
          rcases List.mem_cons.1 hz with rfl | hz
          · exact nx h3
          · exact h2 ⟨z, hz, h3⟩
  obtain ⟨o, ho, -, mem, -⟩ := hv.outgoingHalfedges_ok (hv.vertex_live _ (hv.twin_live _ la))
  unfold isPinch
  rw [tipe la, ho]
  simp only
  rcases loop o (fun x hx => ((mem x).1 hx).1) with ⟨h1, x, hx, y, ly, vy, ht⟩ | ⟨h1, h2⟩
  · obtain ⟨lx, vx⟩ := (mem x).1 hx
    obtain ⟨t1, t2, t3⟩ := (test x y lx ly).1 ht
    exact .inl ⟨h1, x, y, lx, ly, vx, vy, t1, t2, t3⟩
  · refine .inr ⟨h1, ?_⟩
    rintro ⟨x, y, lx, ly, vx, vy, t1, t2, t3⟩
    exact h2 ⟨x, (mem x).2 ⟨lx, vx⟩, y, ly, vy, (test x y lx ly).2 ⟨t1, t2, t3⟩⟩

theorem setIfInner_vh (m : Mesh) (v h u : ℕ) :
    (m.setIfInner v h).vHalfedge u = if u = v ∧ ¬ m.vIsBoundary v then h else m.vHalfedge u := by
  unfold setIfInner
  by_cases c : m.vIsBoundary v
  · simp [c]
  · rw [if_neg c]
    show upd m.vHalfedge v h u = _
    rw [upd_apply]; simp [c]

theorem setIfInner_rest (m : Mesh) (v h : ℕ) :
    m.setIfInner v h = { m with vHalfedge := (m.setIfInner v h).vHalfedge } := by
  unfold setIfInner; split_ifs <;> rfl

theorem del_next (w : Mesh) (h i : ℕ) : (w.deleteEdgeBundle (heEdge h)).heNext i =
    if i = h ∨ i = twin h then INV else w.heNext i := by
  rw [← if_congr (half_iff i h) rfl rfl]
  show upd (upd w.heNext (2 * (h / 2)) INV) (twin (2 * (h / 2))) INV i = _
  rw [twin_two_mul, upd_apply, upd_apply]; split_ifs <;> first | rfl | omega

theorem del_vertex (w : Mesh) (h i : ℕ) : (w.deleteEdgeBundle (heEdge h)).heVertex i =
    if i = h ∨ i = twin h then INV else w.heVertex i := by
  rw [← if_congr (half_iff i h) rfl rfl]
  show upd (upd w.heVertex (2 * (h / 2)) INV) (twin (2 * (h / 2))) INV i = _
  rw [twin_two_mul, upd_apply, upd_apply]; split_ifs <;> first | rfl | omega

theorem del_face (w : Mesh) (h i : ℕ) : (w.deleteEdgeBundle (heEdge h)).heFace i =
    if i = h ∨ i = twin h then INV else w.heFace i := by
  rw [← if_congr (half_iff i h) rfl rfl]
  show upd (upd w.heFace (2 * (h / 2)) INV) (twin (2 * (h / 2))) INV i = _
  rw [twin_two_mul, upd_apply, upd_apply]; split_ifs <;> first | rfl | omega

theorem del_int (w : Mesh) (h : ℕ) (i : ¬ w.ext h) : (w.deleteEdgeBundle (heEdge h)).nInt =
    w.nInt - (if w.heFace (twin h) < w.nFFill then 2 else 1) := by
  have e0 : (w.deleteEdgeBundle (heEdge h)).nInt =
      (if (w.deleteHe (2 * (h / 2))).heIsInterior (twin (2 * (h / 2))) then
        (if w.heIsInterior (2 * (h / 2)) then w.nInt - 1 else w.nInt) - 1
        else (if w.heIsInterior (2 * (h / 2)) then w.nInt - 1 else w.nInt)) := rfl
  have e1 : (w.deleteHe (2 * (h / 2))).heIsInterior (twin (2 * (h / 2))) ↔ w.heIsInterior (twin (2 * (h / 2))) := by
    unfold heIsInterior faceIsBL
    show ¬ w.nFFill ≤ upd w.heFace (2 * (h / 2)) INV (twin (2 * (h / 2))) ↔ _
    rw [upd_ne _ _ (twin_ne _)]
  rw [e0]
  simp only [e1]
  have e2 : ∀ j, w.heIsInterior j ↔ w.heFace j < w.nFFill := by intro j; unfold heIsInterior faceIsBL; omega
  simp only [e2]
  have i' : w.heFace h < w.nFFill := by unfold ext at i; omega
  rcases two_div h with c | c <;> rw [c]
  · rw [if_pos i']; split_ifs <;> omega
  · rw [twin_twin, if_pos i']; split_ifs <;> omega

/-- A triangle has three halfedges. -/
theorem Valid.tri_mem {m : Mesh} (hv : m.Valid) {a i : ℕ} (la : m.heLive a) (li : m.heLive i)
    (t : m.heNext (m.heNext (m.heNext a)) = a) (h : m.heFace i = m.heFace a) :
    i = a ∨ i = m.heNext a ∨ i = m.heNext (m.heNext a) := by
  have o := (hv.face_iff a i la li).1 h.symm
  refine o.mem (fun i => i = a ∨ i = m.heNext a ∨ i = m.heNext (m.heNext a)) (Or.inl rfl) ?_
  rintro z (h | h | h) <;> rw [h]
  · exact Or.inr (Or.inl rfl)
  · exact Or.inr (Or.inr rfl)
  · exact Or.inl t

/-- All interior faces are triangles. -/
def TriMesh (m : Mesh) : Prop := ∀ i, m.heLive i → ¬ m.ext i → m.heNext (m.heNext (m.heNext i)) = i

/-- The surroundings of an interior edge that can be collapsed: `a0 a1 a2`, `b0 b1 b2` are the triangles at the edge,
`c2 c0 c1`, `d1 d2 d0` the triangles beyond `a2` and `b1`. -/
structure Inner (m : Mesh) (a0 a1 a2 b0 b1 b2 c0 c1 c2 d0 d1 d2 : ℕ) : Prop where
  la0 : m.heLive a0
  la1 : m.heLive a1
  la2 : m.heLive a2
  lb0 : m.heLive b0
  lb1 : m.heLive b1
  lb2 : m.heLive b2
  lc0 : m.heLive c0
  lc1 : m.heLive c1
  lc2 : m.heLive c2
  ld0 : m.heLive d0
  ld1 : m.heLive d1
  ld2 : m.heLive d2
  na0 : m.heNext a0 = a1
  na1 : m.heNext a1 = a2
  na2 : m.heNext a2 = a0
  nb0 : m.heNext b0 = b1
  nb1 : m.heNext b1 = b2
  nb2 : m.heNext b2 = b0
  nc2 : m.heNext c2 = c0
  nc0 : m.heNext c0 = c1
  nc1 : m.heNext c1 = c2
  nd1 : m.heNext d1 = d2
  nd2 : m.heNext d2 = d0
  nd0 : m.heNext d0 = d1
  tb : twin a0 = b0
  tc : twin a2 = c2
  td : twin b1 = d1
  va1 : m.heVertex a1 = m.heVertex b0
  vb1 : m.heVertex b1 = m.heVertex a0
  vc2 : m.heVertex c2 = m.heVertex a0
  vc0 : m.heVertex c0 = m.heVertex a2
  vd1 : m.heVertex d1 = m.heVertex b2
  vd2 : m.heVertex d2 = m.heVertex a0
  AB : m.heVertex a0 ≠ m.heVertex b0
  CA : m.heVertex a2 ≠ m.heVertex a0
  CB : m.heVertex a2 ≠ m.heVertex b0
  DA : m.heVertex b2 ≠ m.heVertex a0
  DB : m.heVertex b2 ≠ m.heVertex b0
  fa1 : m.heFace a1 = m.heFace a0
  fa2 : m.heFace a2 = m.heFace a0
  fb1 : m.heFace b1 = m.heFace b0
  fb2 : m.heFace b2 = m.heFace b0
  fc0 : m.heFace c0 = m.heFace c2
  fc1 : m.heFace c1 = m.heFace c2
  fd2 : m.heFace d2 = m.heFace d1
  fd0 : m.heFace d0 = m.heFace d1
  fAB : m.heFace a0 ≠ m.heFace b0
  fAC : m.heFace a0 ≠ m.heFace c2
  fAD : m.heFace a0 ≠ m.heFace d1
  fBC : m.heFace b0 ≠ m.heFace c2
  fBD : m.heFace b0 ≠ m.heFace d1
  xa : ¬ m.ext a0
  xb : ¬ m.ext b0
  xc : ¬ m.ext c2
  xd : ¬ m.ext d1
  inA : ∀ i, m.heLive i → m.heVertex i = m.heVertex a0 → ¬ m.ext i
  selfA : ∀ i, m.heLive i → m.heVertex i = m.heVertex a0 → m.heVertex (twin i) ≠ m.heVertex a0

theorem inner_of {m : Mesh} (hv : m.Valid) (tri : m.TriMesh) {a0 : ℕ} (la : m.heLive a0) (xa : ¬ m.ext a0)
    (xb : ¬ m.ext (twin a0)) (inA : ∀ i, m.heLive i → m.heVertex i = m.heVertex a0 → ¬ m.ext i) (np : ¬ m.Pinch a0)
    (d1 : m.heNext a0 ≠ twin a0) (d2 : m.heNext (twin a0) ≠ a0) (d3 : twin (m.heNext (m.heNext a0)) ≠ m.heNext (twin a0)) :
    ∃ a1 a2 b0 b1 b2 c0 c1 c2 d0 d1 d2, Inner m a0 a1 a2 b0 b1 b2 c0 c1 c2 d0 d1 d2 ∧ (c1 = d1 ∨ m.heFace c2 ≠ m.heFace d1) := by
  have P : ∀ x y, m.heLive x → m.heLive y → m.heVertex x = m.heVertex (twin a0) → m.heVertex y = m.heVertex (twin x) →
      m.heVertex (twin y) = m.heVertex a0 → (x = m.heNext a0 ∧ y = m.heNext (m.heNext a0)) ∨
      (m.heNext (twin x) = twin a0 ∧ m.heNext (twin y) = twin x) := by
    intro x y h1 h2 h3 h4 h5
    by_contra c
    rw [not_or] at c
    exact np ⟨x, y, h1, h2, h3, h4, h5, c.1, c.2⟩
  have na2 := tri a0 la xa
  have lb := hv.twin_live _ la
  have nb2 := tri _ lb xb
  obtain ⟨a1, na0⟩ : ∃ a1, m.heNext a0 = a1 := ⟨_, rfl⟩
  rw [na0] at P na2 d1 d3
  have la1 : m.heLive a1 := na0 ▸ hv.next_live _ la
  obtain ⟨a2, na1⟩ : ∃ a2, m.heNext a1 = a2 := ⟨_, rfl⟩
  rw [na1] at P na2 d3
  have la2 : m.heLive a2 := na1 ▸ hv.next_live _ la1
  obtain ⟨b0, tb⟩ : ∃ b0, twin a0 = b0 := ⟨_, rfl⟩
  rw [tb] at P nb2 d1 d2 d3 lb xb
  have tb' : twin b0 = a0 := by rw [← tb, twin_twin]
  obtain ⟨b1, nb0⟩ : ∃ b1, m.heNext b0 = b1 := ⟨_, rfl⟩
  rw [nb0] at nb2 d2 d3
  have lb1 : m.heLive b1 := nb0 ▸ hv.next_live _ lb
  obtain ⟨b2, nb1⟩ : ∃ b2, m.heNext b1 = b2 := ⟨_, rfl⟩
  rw [nb1] at nb2
  have lb2 : m.heLive b2 := nb1 ▸ hv.next_live _ lb1
  obtain ⟨c2, tc⟩ : ∃ c2, twin a2 = c2 := ⟨_, rfl⟩
  rw [tc] at d3
  have tc' : twin c2 = a2 := by rw [← tc, twin_twin]
  have lc2 : m.heLive c2 := tc ▸ hv.twin_live _ la2
  obtain ⟨c0, nc2⟩ : ∃ c0, m.heNext c2 = c0 := ⟨_, rfl⟩
  have lc0 : m.heLive c0 := nc2 ▸ hv.next_live _ lc2
  obtain ⟨c1, nc0⟩ : ∃ c1, m.heNext c0 = c1 := ⟨_, rfl⟩
  have lc1 : m.heLive c1 := nc0 ▸ hv.next_live _ lc0
  obtain ⟨e1, td⟩ : ∃ d1, twin b1 = d1 := ⟨_, rfl⟩
  have td' : twin e1 = b1 := by rw [← td, twin_twin]
  have ld1 : m.heLive e1 := td ▸ hv.twin_live _ lb1
  obtain ⟨e2, nd1⟩ : ∃ d2, m.heNext e1 = d2 := ⟨_, rfl⟩
  have ld2 : m.heLive e2 := nd1 ▸ hv.next_live _ ld1
  obtain ⟨e0, nd2⟩ : ∃ d0, m.heNext e2 = d0 := ⟨_, rfl⟩
  have ld0 : m.heLive e0 := nd2 ▸ hv.next_live _ ld2
  -- vertices
  have va1 : m.heVertex a1 = m.heVertex b0 := by rw [← na0, hv.vertex_next la, tb]
  have va1' : m.heVertex (twin a1) = m.heVertex a2 := by rw [← na1, hv.vertex_next la1]
  have vb1 : m.heVertex b1 = m.heVertex a0 := by rw [← nb0, hv.vertex_next lb, tb']
  have vc2 : m.heVertex c2 = m.heVertex a0 := by rw [← na2, hv.vertex_next la2, tc]
  have vc0 : m.heVertex c0 = m.heVertex a2 := by rw [← nc2, hv.vertex_next lc2, tc']
  have vd1 : m.heVertex e1 = m.heVertex b2 := by rw [← nb1, hv.vertex_next lb1, td]
  have vd2 : m.heVertex e2 = m.heVertex a0 := by rw [← nd1, hv.vertex_next ld1, td', vb1]
  have vb2' : m.heVertex (twin b2) = m.heVertex b0 := by rw [← nb2, hv.vertex_next lb2]
  have xc : ¬ m.ext c2 := inA _ lc2 vc2
  have xd : ¬ m.ext e1 := by
    have := inA _ ld2 vd2
    rwa [← nd1, hv.ext_next ld1] at this
  have nc1 := tri _ lc2 xc
  rw [nc2, nc0] at nc1
  have nd0 := tri _ ld1 xd
  rw [nd1, nd2] at nd0
  have AB : m.heVertex a0 ≠ m.heVertex b0 := by
    intro h
    rcases P a0 a0 la la h (by rw [tb]; exact h) (by rw [tb]; exact h.symm) with ⟨h1, -⟩ | ⟨h1, -⟩
    · exact hv.deg_two _ la (by rw [na0]; exact h1.symm)
    · rw [tb] at h1; exact hv.deg_two _ lb h1
  have selfA : ∀ z, m.heLive z → m.heVertex z = m.heVertex a0 → m.heVertex (twin z) ≠ m.heVertex a0 := by
    intro z lz v1 v2
    rcases P b0 z lb lz rfl (by rw [tb']; exact v1) v2 with ⟨h1, -⟩ | ⟨h1, -⟩
    · exact d1 h1.symm
    · rw [tb', na0] at h1; exact d1 h1
  have noA2 : a2 ≠ b0 := by
    rintro rfl; rw [na2] at nb0; exact d2 nb0.symm
  have selfB : ∀ z, m.heLive z → m.heVertex z = m.heVertex b0 → m.heVertex (twin z) ≠ m.heVertex b0 := by
    intro z lz v1 v2
    rcases P z b0 lz lb v1 v2.symm (by rw [tb']) with ⟨-, h1⟩ | ⟨h0, h1⟩
    · exact noA2 h1.symm
    · rw [tb', na0] at h1; rw [← h1, na1] at h0; exact noA2 h0
  have CA : m.heVertex a2 ≠ m.heVertex a0 := fun h => selfA a2 la2 h (by rw [tc]; exact vc2)
  have CB : m.heVertex a2 ≠ m.heVertex b0 := fun h => selfB a1 la1 va1 (by rw [va1']; exact h)
  have DA : m.heVertex b2 ≠ m.heVertex a0 := fun h => selfA b1 lb1 vb1 (by rw [td, vd1]; exact h)
  have DB : m.heVertex b2 ≠ m.heVertex b0 := fun h => selfB b2 lb2 h vb2'
  -- faces
  have fa1 : m.heFace a1 = m.heFace a0 := by rw [← na0, hv.face_next la]
  have fa2 : m.heFace a2 = m.heFace a0 := by rw [← na1, hv.face_next la1, fa1]
  have fb1 : m.heFace b1 = m.heFace b0 := by rw [← nb0, hv.face_next lb]
  have fb2 : m.heFace b2 = m.heFace b0 := by rw [← nb1, hv.face_next lb1, fb1]
  have fc0 : m.heFace c0 = m.heFace c2 := by rw [← nc2, hv.face_next lc2]
  have fc1 : m.heFace c1 = m.heFace c2 := by rw [← nc0, hv.face_next lc0, fc0]
  have fd2 : m.heFace e2 = m.heFace e1 := by rw [← nd1, hv.face_next ld1]
  have fd0 : m.heFace e0 = m.heFace e1 := by rw [← nd2, hv.face_next ld2, fd2]
  have memA : ∀ i, m.heLive i → m.heFace i = m.heFace a0 → i = a0 ∨ i = a1 ∨ i = a2 := by
    intro i li h
    have := hv.tri_mem la li (by rw [na0, na1, na2]) h
    rwa [na0, na1] at this
  have memB : ∀ i, m.heLive i → m.heFace i = m.heFace b0 → i = b0 ∨ i = b1 ∨ i = b2 := by
    intro i li h
    have := hv.tri_mem lb li (by rw [nb0, nb1, nb2]) h
    rwa [nb0, nb1] at this
  have fAB : m.heFace a0 ≠ m.heFace b0 := by
    intro h
    rcases memA b0 lb h.symm with h | h | h
    · rw [← tb] at h; exact twin_ne _ h
    · exact d1 h.symm
    · exact noA2 h.symm
  have fAC : m.heFace a0 ≠ m.heFace c2 := by
    intro h
    rcases memA c2 lc2 h.symm with h | h | h
    · rw [h, tb] at tc'; exact noA2 tc'.symm
    · rw [h, va1] at vc2; exact AB vc2.symm
    · rw [h] at vc2; exact CA vc2
  have fAD : m.heFace a0 ≠ m.heFace e1 := by
    intro h
    rcases memA e1 ld1 h.symm with h | h | h
    · rw [h] at vd1; exact DA vd1.symm
    · rw [h, va1] at vd1; exact DB vd1.symm
    · rw [h, tc] at td'; exact d3 td'
  have fBC : m.heFace b0 ≠ m.heFace c2 := by
    intro h
    rcases memB c2 lc2 h.symm with h | h | h
    · rw [h] at vc2; exact AB vc2.symm
    · exact d3 h
    · rw [h] at vc2; exact DA vc2
  have fBD : m.heFace b0 ≠ m.heFace e1 := by
    intro h
    rcases memB e1 ld1 h.symm with h | h | h
    · rw [h] at vd1; exact DB vd1.symm
    · rw [h, vb1] at vd1; exact DA vd1.symm
    · rw [h, nb2] at nd1; rw [← nd1] at vd2; exact AB vd2.symm
  refine ⟨a1, a2, b0, b1, b2, c0, c1, c2, e0, e1, e2, ⟨la, la1, la2, lb, lb1, lb2, lc0, lc1, lc2, ld0, ld1, ld2, na0, na1, na2,
    nb0, nb1, nb2, nc2, nc0, nc1, nd1, nd2, nd0, tb, tc, td, va1, vb1, vc2, vc0, vd1, vd2, AB, CA, CB, DA, DB, fa1, fa2, fb1, fb2,
    fc0, fc1, fd2, fd0, fAB, fAC, fAD, fBC, fBD, xa, xb, xc, xd, inA, selfA⟩, ?_⟩
  by_cases c : m.heFace c2 = m.heFace e1
  · left
    have := hv.tri_mem lc2 ld1 (by rw [nc2, nc0, nc1]) c.symm
    rw [nc2, nc0] at this
    rcases this with h | h | h
    · rw [h, vc2] at vd1; exact absurd vd1.symm DA
    · rw [h, nc0] at nd1
      have h2 : m.heVertex (twin e2) = m.heVertex a0 := by rw [← hv.vertex_next ld2, ← nd1, nc1, vc2]
      exact absurd h2 (selfA e2 ld2 vd2)
    · exact h.symm
  · exact .inr c

/-- The mesh without the edges of `a2` and `b1`. -/
structure Inner2 (m M : Mesh) (a0 a2 b0 b1 b2 c0 c1 c2 d1 d2 : ℕ) : Prop where
  valid : M.Valid
  live : ∀ i, M.heLive i ↔ m.heLive i ∧ i ≠ a2 ∧ i ≠ c2 ∧ i ≠ b1 ∧ i ≠ d1
  next : ∀ i, M.heLive i → M.heNext i =
    if m.heNext i = a2 then c0 else if m.heNext i = b1 then (if c1 = d1 then a0 else d2)
    else if m.heNext i = d1 then b2 else if m.heNext i = c2 then a0 else m.heNext i
  nextd : ∀ i, m.heLive i → ¬ M.heLive i → M.heNext i = INV
  next0 : ∀ i, ¬ m.heLive i → M.heNext i = m.heNext i
  vert : ∀ i, M.heVertex i = m.heVertex i
  face : ∀ i, M.heFace i = if m.heFace i = m.heFace a0 then m.heFace c2 else
    if m.heFace i = m.heFace b0 then m.heFace d1 else m.heFace i
  ext : ∀ i, M.ext i ↔ m.ext i
  vlive : ∀ v, M.vLive v ↔ m.vLive v
  vh0 : ∀ v, ¬ m.vLive v → M.vHalfedge v = m.vHalfedge v
  flive : ∀ f, M.fLive f ↔ m.fLive f ∧ f ≠ m.heFace a0 ∧ f ≠ m.heFace b0
  fhd : ∀ f, m.fLive f → ¬ M.fLive f → M.fHalfedge f = INV
  fh0 : ∀ f, ¬ m.fLive f → M.fHalfedge f = m.fHalfedge f
  c : M.nHeFill = m.nHeFill ∧ M.nHeCap = m.nHeCap ∧ M.nEFill = m.nEFill ∧ M.nECap = m.nECap ∧ M.nVFill = m.nVFill ∧
    M.nVCap = m.nVCap ∧ M.nFFill = m.nFFill ∧ M.nFCap = m.nFCap ∧ M.nBLFill = m.nBLFill ∧ M.nHe = m.nHe - 4 ∧
    M.nInt = m.nInt - 4 ∧ M.nE = m.nE - 2 ∧ M.nV = m.nV ∧ M.nF = m.nF - 2 ∧ M.nBL = m.nBL ∧ 2 ≤ m.nF

section
variable {m : Mesh} {a0 a1 a2 b0 b1 b2 c0 c1 c2 d0 d1 d2 : ℕ}

theorem inner_rem (hv : m.Valid) (I : Inner m a0 a1 a2 b0 b1 b2 c0 c1 c2 d0 d1 d2) :
    ∃ M, Inner2 m M a0 a2 b0 b1 b2 c0 c1 c2 d1 d2 := by
  have tc' : twin c2 = a2 := by rw [← I.tc, twin_twin]
  have td' : twin d1 = b1 := by rw [← I.td, twin_twin]
  have ext_of : ∀ {i j}, m.heFace i = m.heFace j → ¬ m.ext j → ¬ m.ext i := by
    intro i j h; unfold Mesh.ext; rw [h]; exact id
  have xa2 : ¬ m.ext a2 := ext_of I.fa2 I.xa
  have xb1 : ¬ m.ext b1 := ext_of I.fb1 I.xb
  have S1 : RemSpec m (m.remMesh c2 a2) c2 a2 := remMesh_spec hv I.lc2 tc'.symm (by rw [I.fa2]; exact I.fAC.symm) I.xc xa2
  obtain ⟨V1, e1, k1, k2, k3⟩ := rem_valid hv S1
  have L1 := S1.live hv
  have ne1 : d1 ≠ c2 := by rintro h; have := I.vd1; rw [h, I.vc2] at this; exact I.DA this.symm
  have ne2 : d1 ≠ a2 := by rintro h; apply I.fAD; rw [h, I.fa2]
  have ne3 : b1 ≠ c2 := by rintro h; apply I.fBC; rw [← h, I.fb1]
  have ne4 : b1 ≠ a2 := by rintro h; apply I.fAB; rw [← I.fa2, ← h, I.fb1]
  have ld1 : (m.remMesh c2 a2).heLive d1 := (L1 _).2 ⟨I.ld1, ne1, ne2⟩
  have lb1 : (m.remMesh c2 a2).heLive b1 := (L1 _).2 ⟨I.lb1, ne3, ne4⟩
  have F1 : ∀ i, (m.remMesh c2 a2).heFace i = if m.heFace i = m.heFace a0 then m.heFace c2 else m.heFace i := by
    intro i; show (if m.heFace i = m.heFace a2 then _ else _) = _; rw [I.fa2]
  have fd1 : (m.remMesh c2 a2).heFace d1 = m.heFace d1 := by rw [F1, if_neg I.fAD.symm]
  have fb1 : (m.remMesh c2 a2).heFace b1 = m.heFace b0 := by rw [F1, I.fb1, if_neg I.fAB.symm]
  have S2 : RemSpec (m.remMesh c2 a2) ((m.remMesh c2 a2).remMesh d1 b1) d1 b1 := by
    refine remMesh_spec V1 ld1 td'.symm ?_ ?_ ?_
    · rw [fd1, fb1]; exact I.fBD.symm
    · rw [e1 _ I.ld1 ne1 ne2]; exact I.xd
    · rw [e1 _ I.lb1 ne3 ne4]; exact xb1
  obtain ⟨V2, e2, j1, j2, j3⟩ := rem_valid V1 S2
  have L2 := S2.live V1
  have nb1 : (m.remMesh c2 a2).heNext b1 = b2 := by
    rw [S1.next_o b1 I.lb1 ne3 ne4, I.nb1, if_neg, if_neg]
    · rintro h; apply I.fAB; rw [← I.fa2, ← h, I.fb2]
    · rintro h; apply I.fBC; rw [← h, I.fb2]
  have nd1 : (m.remMesh c2 a2).heNext d1 = if c1 = d1 then a0 else d2 := by
    rw [S1.next_o d1 I.ld1 ne1 ne2, I.na2, I.nd1]
    by_cases h : c1 = d1
    · rw [if_pos h, if_pos]
      have := I.nc1; rw [h, I.nd1] at this; exact this
    · rw [if_neg h, if_neg, if_neg]
      · rintro h2; apply I.fAD; rw [← I.fa2, ← h2, I.fd2]
      · rintro h2; exact h (hv.next_inj I.lc1 I.ld1 (by rw [I.nc1, I.nd1, h2]))
  have live : ∀ i, ((m.remMesh c2 a2).remMesh d1 b1).heLive i ↔ m.heLive i ∧ i ≠ a2 ∧ i ≠ c2 ∧ i ≠ b1 ∧ i ≠ d1 := by
    intro i; rw [L2, L1]; tauto
  have face : ∀ i, ((m.remMesh c2 a2).remMesh d1 b1).heFace i = if m.heFace i = m.heFace a0 then m.heFace c2 else
      if m.heFace i = m.heFace b0 then m.heFace d1 else m.heFace i := by
    intro i
    show (if (m.remMesh c2 a2).heFace i = (m.remMesh c2 a2).heFace b1 then (m.remMesh c2 a2).heFace d1
      else (m.remMesh c2 a2).heFace i) = _
    rw [fb1, fd1, F1]
    by_cases h : m.heFace i = m.heFace a0
    · rw [if_pos h, if_pos h, if_neg I.fBC.symm]
    · rw [if_neg h, if_neg h]
  refine ⟨(m.remMesh c2 a2).remMesh d1 b1, V2, live, ?_, ?_, ?_, fun i => rfl, face, ?_, ?_, ?_, ?_, ?_, ?_, ?_⟩
  · intro i hi
    obtain ⟨h0, h1, h2, h3, h4⟩ := (live i).1 hi
    obtain ⟨g0, g1, g2⟩ := (L2 i).1 hi
    rw [S2.next_o i g0 g1 g2, nb1, nd1, S1.next_o i h0 h2 h1, I.na2, I.nc2]
    have n1 : a2 ≠ b1 := ne4.symm
    have n2 : a2 ≠ d1 := ne2.symm
    have n3 : c2 ≠ d1 := ne1.symm
    have n4 : c2 ≠ b1 := ne3.symm
    have n5 : c2 ≠ a2 := by rw [← I.tc]; exact twin_ne _
    have n6 : b1 ≠ d1 := by rw [← I.td]; exact (twin_ne _).symm
    have n7 : a0 ≠ d1 := fun h => I.fAD (by rw [h])
    have n8 : a0 ≠ b1 := fun h => I.fAB (by rw [h, I.fb1])
    have n9 : c0 ≠ d1 := by
      intro h
      have e1 := I.nd1; rw [← h, I.nc0] at e1
      have e2 : m.heVertex (twin d2) = m.heVertex a0 := by rw [← hv.vertex_next I.ld2, ← e1, I.nc1, I.vc2]
      exact I.selfA d2 I.ld2 I.vd2 e2
    have n10 : c0 ≠ b1 := fun h => I.fBC (by rw [← I.fb1, ← h, I.fc0])
    by_cases q1 : m.heNext i = a2
    · simp only [q1, n5.symm, if_false, if_true, n9, n10]
    by_cases q2 : m.heNext i = c2
    · simp only [q2, if_true, n7, n8, if_false, n5, n4, n3]
    by_cases q3 : m.heNext i = d1
    · simp only [q3, ne1, ne2, if_false, if_true, n6.symm]
    by_cases q4 : m.heNext i = b1
    · simp only [q4, if_false, if_true, ne3, ne4, n6]
    · simp only [q1, q2, q3, q4, if_false]
  · intro i hi hn
    have : i = a2 ∨ i = c2 ∨ i = b1 ∨ i = d1 := by
      by_contra c; rw [not_or, not_or, not_or] at c; exact hn ((live i).2 ⟨hi, c.1, c.2.1, c.2.2.1, c.2.2.2⟩)
    rcases this with h | h | h | h
    · rw [h, S2.next_dead _ (fun h => ((L1 _).1 h).2.2 rfl), S1.next_B]
    · rw [h, S2.next_dead _ (fun h => ((L1 _).1 h).2.1 rfl), S1.next_A]
    · rw [h, S2.next_B]
    · rw [h, S2.next_A]
  · intro i hi
    rw [S2.next_dead _ (fun h => hi ((L1 _).1 h).1), S1.next_dead _ hi]
  · intro i
    have xa := I.xa; have xb := I.xb; have xc := I.xc; have xd := I.xd
    unfold Mesh.ext at *
    rw [face]
    show m.nFFill ≤ _ ↔ _
    split_ifs with h h <;> omega
  · intro v
    have vl : ∀ {m m' : Mesh} {A B}, m.Valid → RemSpec m m' A B → (m'.vLive v ↔ m.vLive v) := by
      intro m m' A B hv S
      unfold vLive; rw [S.c_vFill]
      by_cases c : m.vLive v ∧ (m.vHalfedge v = A ∨ m.vHalfedge v = B)
      · refine iff_of_true ⟨c.1.1, ?_⟩ c.1
        have lB : m.heLive B := by rw [S.hB]; exact hv.twin_live _ S.lA
        rcases (S.vh_e v c.1 c.2).1 with h | h <;> rw [h]
        · exact (hv.live_lt_INV (hv.next_live _ S.lA)).ne
        · exact (hv.live_lt_INV (hv.next_live _ lB)).ne
      · rw [S.vh_o v c]
    rw [vl V1 S2, vl hv S1]
  · intro v hn
    show (if (m.remMesh c2 a2).vLive v then _ else (m.remMesh c2 a2).vHalfedge v) = _
    have e : (m.remMesh c2 a2).vHalfedge v = m.vHalfedge v := by
      show (if m.vLive v then _ else m.vHalfedge v) = _; rw [if_neg hn]
    have : ¬ (m.remMesh c2 a2).vLive v := by unfold vLive; rw [e]; exact hn
    rw [if_neg this, e]
  · intro f
    have fl : ∀ {m m' : Mesh} {A B}, m.Valid → RemSpec m m' A B → (m'.fLive f ↔ m.fLive f ∧ f ≠ m.heFace B) := by
      intro m m' A B hv S
      unfold fLive
      rw [S.c_fFill, S.c_fCap, S.c_blFill, S.fh]
      by_cases c1 : f = m.heFace B
      · simp [c1]
      rw [if_neg c1]
      by_cases c2 : f = m.heFace A
      · rw [if_pos c2]
        have := Valid.face_lt S.iA
        refine iff_of_true ⟨Or.inl (by omega), (hv.live_lt_INV (hv.next_live _ S.lA)).ne⟩ ⟨?_, c1⟩
        rw [c2]; exact hv.face_live _ S.lA
      · rw [if_neg c2]; simp [c1]
    rw [fl V1 S2, fl hv S1, fb1, I.fa2, and_assoc]
  · intro f hf hn
    by_contra h
    exact hn ⟨hf.1, h⟩
  · intro f hn
    have ne : ∀ {i}, m.heLive i → f ≠ m.heFace i := fun li h => hn (h ▸ hv.face_live _ li)
    rw [S2.fh, fb1, fd1, if_neg (ne I.lb0), if_neg (ne I.ld1), S1.fh, if_neg (ne I.la2), if_neg (ne I.lc2)]
  · refine ⟨rfl, rfl, rfl, rfl, rfl, rfl, rfl, rfl, rfl, ?_, ?_, ?_, rfl, ?_, rfl, ?_⟩
    · show m.nHe - 2 - 2 = _; omega
    · show m.nInt - 2 - 2 = _; omega
    · show m.nE - 1 - 1 = _; omega
    · show m.nF - 1 - 1 = _; omega
    · have : 1 ≤ m.nF - 1 := j3
      omega

end

end Mesh
end GC
