import Verif.Simplify
import Verif.Props.Collapse

/-! # Collapses in meshes without double edges (lemmas for C83) -/

namespace GC
namespace Mesh
variable {m m' : Mesh}

/-- Two halfedges with the same ends are equal: no two edges have the same ends, and no edge goes from a vertex to itself. -/
def NoDouble (m : Mesh) : Prop :=
  ∀ i j, m.heLive i → m.heLive j → m.heVertex i = m.heVertex j → m.heVertex (twin i) = m.heVertex (twin j) → i = j

/-- The two faces at `e` have all three sides in common: they are a closed component of two triangles. -/
def Doubled (m : Mesh) (e : ℕ) : Prop :=
  ∀ i, m.heLive i → m.heFace i = m.heFace (2 * e) → m.heFace (twin i) = m.heFace (2 * e + 1)

/-- `m'` is `m` with vertices merged by `r` and faces removed: the vertices of `m'` are the values of `r`, which does not move them, the
faces of `m'` are faces of `m`, and their corners are those of `m` up to `r`, with `ρ` for the new places. -/
structure Contracts (m m' : Mesh) (r ρ : ℕ → ℕ) : Prop where
  v : ∀ v, m.vLive v → m'.vLive (r v)
  fix : ∀ w, m'.vLive w → m.vLive w ∧ r w = w
  f : ∀ f, m'.fLive f → m.fLive f
  he : ∀ i, m.heLive i → ¬ m.ext i → m'.fLive (m.heFace i) → m'.heLive (ρ i) ∧ ¬ m'.ext (ρ i) ∧ m'.heFace (ρ i) = m.heFace i ∧
    m'.heVertex (ρ i) = r (m.heVertex i) ∧ m'.heNext (ρ i) = ρ (m.heNext i)

theorem Contracts.refl (m : Mesh) : Contracts m m id id :=
  ⟨fun _ h => h, fun _ h => ⟨h, rfl⟩, fun _ h => h, fun _ h1 h2 _ => ⟨h1, h2, rfl, rfl, rfl⟩⟩

theorem Contracts.trans {m1 m2 m3 : Mesh} {r ρ r' ρ' : ℕ → ℕ} (h : Contracts m1 m2 r ρ) (h' : Contracts m2 m3 r' ρ') :
    Contracts m1 m3 (r' ∘ r) (ρ' ∘ ρ) := by
  refine ⟨fun v hv => h'.v _ (h.v v hv), fun w hw => ?_, fun f hf => h.f _ (h'.f f hf), fun i li xi fi => ?_⟩
  · obtain ⟨a, b⟩ := h'.fix w hw
    obtain ⟨c, d⟩ := h.fix w a
    refine ⟨c, ?_⟩
    show r' (r w) = w
    rw [d, b]
  · obtain ⟨a1, a2, a3, a4, a5⟩ := h.he i li xi (h'.f _ fi)
    obtain ⟨b1, b2, b3, b4, b5⟩ := h'.he (ρ i) a1 a2 (by rw [a3]; exact fi)
    exact ⟨b1, b2, b3.trans a3, b4.trans (by rw [a4]; rfl), b5.trans (by rw [a5]; rfl)⟩

theorem NoDouble.noLoop (hs : m.NoDouble) (hv : m.Valid) {i : ℕ} (li : m.heLive i) : m.heVertex i ≠ m.heVertex (twin i) := by
  intro h
  exact twin_ne i (hs i (twin i) li (hv.twin_live _ li) h (by rw [twin_twin]; exact h.symm)).symm

theorem noDouble_of (hv : m.Valid) (hs : m.NoDouble) (hv' : m'.Valid) {a0 : ℕ} (la : m.heLive a0)
    (sub : ∀ i, m'.heLive i → m.heLive i ∧ i / 2 ≠ a0 / 2 ∧ i / 2 ≠ m.heNext (m.heNext a0) / 2)
    (far : ∀ i, m'.heLive i → m.heNext (m.heNext i) = twin a0 → m.heVertex i = m.heVertex a0 → False)
    (vert : ∀ i, m'.heLive i → m'.heVertex i = if m.heVertex i = m.heVertex a0 then m.heVertex (twin a0) else m.heVertex i)
    (np : ¬ m.Pinch a0) : m'.NoDouble := by
  have lb := hv.twin_live _ la
  -- no halfedge of `m'` joins the two merged vertices
  have no1 : ∀ i, m'.heLive i → m.heVertex i = m.heVertex a0 → m.heVertex (twin i) ≠ m.heVertex (twin a0) := by
    intro i li h1 h2
    have := hs i a0 (sub i li).1 la h1 h2
    exact (sub i li).2.1 (by rw [this])
  have no2 : ∀ i, m'.heLive i → m.heVertex i = m.heVertex (twin a0) → m.heVertex (twin i) ≠ m.heVertex a0 := by
    intro i li h1 h2
    exact no1 (twin i) (hv'.twin_live _ li) h2 (by rw [twin_twin]; exact h1)
  have key : ∀ i j, m'.heLive i → m'.heLive j → m.heVertex i = m.heVertex a0 → m.heVertex j = m.heVertex (twin a0) →
      m'.heVertex (twin i) = m'.heVertex (twin j) → False := by
    intro i j li lj hi hj hij
    have t1 := no1 i li hi
    have t2 := no2 j lj hj
    have li0 := (sub i li).1
    have lj0 := (sub j lj).1
    have n1 := hs.noLoop hv li0
    have n2 := hs.noLoop hv lj0
    rw [vert _ (hv'.twin_live _ li), vert _ (hv'.twin_live _ lj), if_neg (fun h => n1 (hi.trans h.symm)), if_neg t2] at hij
    refine np ⟨j, twin i, lj0, hv.twin_live _ li0, hj, hij, by rw [twin_twin]; exact hi, fun h => ?_, fun h => ?_⟩
    · refine (sub i li).2.2 ?_
      rw [← h.2, twin_div]
    · rw [twin_twin] at h
      exact far i li (by rw [h.2]; exact h.1) hi
  have vtx : ∀ i j, m'.heLive i → m'.heLive j → m'.heVertex i = m'.heVertex j → m'.heVertex (twin i) = m'.heVertex (twin j) →
      m.heVertex i = m.heVertex j := by
    intro i j li lj h1 h2
    have e := h1
    rw [vert i li, vert j lj] at e
    by_cases c1 : m.heVertex i = m.heVertex a0
    · by_cases c2 : m.heVertex j = m.heVertex a0
      · rw [c1, c2]
      · rw [if_pos c1, if_neg c2] at e
        exact (key i j li lj c1 e.symm h2).elim
    · by_cases c2 : m.heVertex j = m.heVertex a0
      · rw [if_neg c1, if_pos c2] at e
        exact (key j i lj li c2 e h2.symm).elim
      · rw [if_neg c1, if_neg c2] at e; exact e
  intro i j li lj h1 h2
  refine hs i j (sub i li).1 (sub j lj).1 (vtx i j li lj h1 h2) (vtx _ _ (hv'.twin_live _ li) (hv'.twin_live _ lj) h2 ?_)
  rw [twin_twin, twin_twin]; exact h1

theorem Collapsed.simple {a0 : ℕ} (C : Collapsed m m' a0) (hv : m.Valid) (tri : m.TriMesh) (hs : m.NoDouble) (la : m.heLive a0)
    (xb : ¬ m.ext (twin a0)) (np : ¬ m.Pinch a0) : m'.NoDouble := by
  refine noDouble_of hv hs C.valid la (fun i li => ?_) (fun i li h1 _ => ?_) C.vert np
  · obtain ⟨h1, h2, h3, -⟩ := (C.he i).1 li
    exact ⟨h1, h2, h3⟩
  · obtain ⟨h1', h2, h3, h4⟩ := (C.he i).1 li
    have xi : ¬ m.ext i := fun x => xb (by rw [← h1]; exact (hv.ext_next (hv.next_live _ h1')).2 ((hv.ext_next h1').2 x))
    refine h4 ?_
    rw [← h1, tri i h1' xi]

theorem RimCollapsed.simple {a0 : ℕ} (C : RimCollapsed m m' a0) (hv : m.Valid) (hs : m.NoDouble) (la : m.heLive a0)
    (xb : m.ext (twin a0)) (n3 : m.heNext (m.heNext (m.heNext (twin a0))) ≠ twin a0) (np : ¬ m.Pinch a0) : m'.NoDouble := by
  refine noDouble_of hv hs C.valid la (fun i li => (C.he i).1 li) (fun i li h1 h2 => ?_) C.vert np
  have li0 := ((C.he i).1 li).1
  have lb := hv.twin_live _ la
  have xi : m.ext i := by
    rw [← hv.ext_next li0, ← hv.ext_next (hv.next_live _ li0), h1]; exact xb
  have : i = m.heNext (twin a0) := by
    refine hv.bdy_unique _ _ li0 (hv.next_live _ lb) xi ((hv.ext_next lb).2 xb) ?_
    rw [hv.vertex_next lb, twin_twin]; exact h2
  rw [this] at h1
  exact n3 h1

/-- The vertices of the two triangles. -/
theorem tri_ends (hv : m.Valid) (tri : m.TriMesh) (hs : m.NoDouble) {a : ℕ} (la : m.heLive a) (xa : ¬ m.ext a) :
    m.heVertex (m.heNext a) = m.heVertex (twin a) ∧ m.heVertex (twin (m.heNext a)) = m.heVertex (m.heNext (m.heNext a)) ∧
    m.heVertex (twin (m.heNext (m.heNext a))) = m.heVertex a ∧ m.heVertex (m.heNext (m.heNext a)) ≠ m.heVertex a ∧
    m.heVertex (m.heNext (m.heNext a)) ≠ m.heVertex (twin a) := by
  have l1 := hv.next_live _ la
  have l2 := hv.next_live _ l1
  have e1 := hv.vertex_next la
  have e2 := hv.vertex_next l1
  have e3 := hv.vertex_next l2
  rw [tri a la xa] at e3
  refine ⟨e1, e2.symm, e3.symm, ?_, ?_⟩
  · rw [e3]; exact hs.noLoop hv l2
  · rw [← e1, e2]; exact (hs.noLoop hv l1).symm

theorem half_cases {i j : ℕ} (h : i / 2 = j / 2) : i = j ∨ i = twin j := by
  rw [twin_eq]; split <;> omega

/-- A halfedge away from `A` lies on another edge than one at `A`. -/
theorem half_ne (hv : m.Valid) {A i j : ℕ} (h1 : m.heVertex i ≠ A) (h2 : m.heVertex (twin i) ≠ A)
    (h3 : m.heVertex j = A ∨ m.heVertex (twin j) = A) : i / 2 ≠ j / 2 := by
  intro h
  rcases half_cases h with rfl | rfl
  · exact h3.elim h1 h2
  · rw [twin_twin] at h2
    exact h3.elim h2 h1

theorem Collapsed.contracts {a0 : ℕ} (C : Collapsed m m' a0) (hv : m.Valid) (tri : m.TriMesh) (hs : m.NoDouble) (la : m.heLive a0)
    (xa : ¬ m.ext a0) (xb : ¬ m.ext (twin a0)) :
    Contracts m m' (fun v => if v = m.heVertex a0 then m.heVertex (twin a0) else v) (m.colPlace a0) := by
  have lb := hv.twin_live _ la
  obtain ⟨p1, p2, p3, p4, p5⟩ := tri_ends hv tri hs la xa
  obtain ⟨q1, q2, q3, q4, q5⟩ := tri_ends hv tri hs lb xb
  rw [twin_twin] at q1 q5
  have l1 := hv.next_live _ la
  have l2 := hv.next_live _ l1
  have k1 := hv.next_live _ lb
  have k2 := hv.next_live _ k1
  have AB := C.ends
  refine ⟨fun v hvl => ?_, fun w hw => ?_, fun f hf => ((C.f f).1 hf).1, fun i li xi fi => ?_⟩
  · by_cases h : v = m.heVertex a0
    · rw [if_pos h]; exact (C.v _).2 ⟨hv.vertex_live _ lb, AB.symm⟩
    · rw [if_neg h]; exact (C.v _).2 ⟨hvl, h⟩
  · obtain ⟨h1, h2⟩ := (C.v w).1 hw
    exact ⟨h1, if_neg h2⟩
  · obtain ⟨-, f1, f2⟩ := (C.f _).1 fi
    have key : m'.heLive (m.colPlace a0 i) ∧ m'.heVertex (m.colPlace a0 i) =
        if m.heVertex i = m.heVertex a0 then m.heVertex (twin a0) else m.heVertex i := by
      by_cases c1 : i = twin (m.heNext (m.heNext a0))
      · have e : m.colPlace a0 i = m.heNext a0 := by unfold colPlace; rw [if_pos c1]
        have b1 : m.heVertex (m.heNext a0) ≠ m.heVertex a0 := by rw [p1]; exact AB.symm
        have b2 : m.heVertex (twin (m.heNext a0)) ≠ m.heVertex a0 := by rw [p2]; exact p4
        have L : m'.heLive (m.heNext a0) := (C.he _).2 ⟨l1, half_ne hv b1 b2 (Or.inl rfl), half_ne hv b1 b2 (Or.inr p3),
          half_ne hv b1 b2 (Or.inl q1)⟩
        refine ⟨by rw [e]; exact L, ?_⟩
        rw [e, C.vert _ L, if_neg b1, p1, if_pos (by rw [c1]; exact p3)]
      · by_cases c2 : i = twin (m.heNext (twin a0))
        · have e : m.colPlace a0 i = m.heNext (m.heNext (twin a0)) := by unfold colPlace; rw [if_neg c1, if_pos c2]
          have b1 : m.heVertex (m.heNext (m.heNext (twin a0))) ≠ m.heVertex a0 := q5
          have b2 : m.heVertex (twin (m.heNext (m.heNext (twin a0)))) ≠ m.heVertex a0 := by rw [q3]; exact AB.symm
          have L : m'.heLive (m.heNext (m.heNext (twin a0))) := (C.he _).2 ⟨k2, half_ne hv b1 b2 (Or.inl rfl), half_ne hv b1 b2 (Or.inr p3),
            half_ne hv b1 b2 (Or.inl q1)⟩
          refine ⟨by rw [e]; exact L, ?_⟩
          have vi : m.heVertex i = m.heVertex (m.heNext (m.heNext (twin a0))) := by rw [c2, q2]
          rw [e, C.vert _ L, vi]
        · have e : m.colPlace a0 i = i := by unfold colPlace; rw [if_neg c1, if_neg c2]
          have L : m'.heLive i := by
            refine (C.he i).2 ⟨li, fun h => ?_, fun h => ?_, fun h => ?_⟩
            · rcases half_cases h with rfl | rfl
              · exact f1 rfl
              · exact f2 rfl
            · rcases half_cases h with rfl | rfl
              · exact f1 (by rw [hv.face_next l1, hv.face_next la])
              · exact c1 rfl
            · rcases half_cases h with rfl | rfl
              · exact f2 (hv.face_next lb)
              · exact c2 rfl
          rw [e]
          exact ⟨L, C.vert i L⟩
    have F := C.face i li f1 f2
    refine ⟨key.1, ?_, F, key.2, C.next i li f1 f2⟩
    rw [C.ext _ key.1]
    intro x
    have := (C.ext _ key.1).2 x
    -- the face of the new place is the old face, which is live and interior
    by_cases c1 : i = twin (m.heNext (m.heNext a0))
    · have e : m.colPlace a0 i = m.heNext a0 := by unfold colPlace; rw [if_pos c1]
      rw [e] at x; exact xa ((hv.ext_next la).1 x)
    · by_cases c2 : i = twin (m.heNext (twin a0))
      · have e : m.colPlace a0 i = m.heNext (m.heNext (twin a0)) := by unfold colPlace; rw [if_neg c1, if_pos c2]
        rw [e] at x; exact xb ((hv.ext_next lb).1 ((hv.ext_next k1).1 x))
      · have e : m.colPlace a0 i = i := by unfold colPlace; rw [if_neg c1, if_neg c2]
        rw [e] at x; exact xi x

theorem RimCollapsed.contracts {a0 : ℕ} (C : RimCollapsed m m' a0) (hv : m.Valid) (tri : m.TriMesh) (hs : m.NoDouble) (la : m.heLive a0)
    (xa : ¬ m.ext a0) (xb : m.ext (twin a0)) :
    Contracts m m' (fun v => if v = m.heVertex a0 then m.heVertex (twin a0) else v) (m.rimPlace a0) := by
  have lb := hv.twin_live _ la
  obtain ⟨p1, p2, p3, p4, p5⟩ := tri_ends hv tri hs la xa
  have l1 := hv.next_live _ la
  have l2 := hv.next_live _ l1
  have AB := C.ends
  refine ⟨fun v hvl => ?_, fun w hw => ?_, fun f hf => ((C.f f).1 hf).1, fun i li xi fi => ?_⟩
  · by_cases h : v = m.heVertex a0
    · rw [if_pos h]; exact (C.v _).2 ⟨hv.vertex_live _ lb, AB.symm⟩
    · rw [if_neg h]; exact (C.v _).2 ⟨hvl, h⟩
  · obtain ⟨h1, h2⟩ := (C.v w).1 hw
    exact ⟨h1, if_neg h2⟩
  · obtain ⟨-, f1⟩ := (C.f _).1 fi
    have ib : i ≠ twin a0 := fun h => xi (h ▸ xb)
    have key : m'.heLive (m.rimPlace a0 i) ∧ m'.heVertex (m.rimPlace a0 i) =
        (if m.heVertex i = m.heVertex a0 then m.heVertex (twin a0) else m.heVertex i) ∧ ¬ m.ext (m.rimPlace a0 i) := by
      by_cases c1 : i = twin (m.heNext (m.heNext a0))
      · have e : m.rimPlace a0 i = m.heNext a0 := by unfold rimPlace; rw [if_pos c1]
        have b1 : m.heVertex (m.heNext a0) ≠ m.heVertex a0 := by rw [p1]; exact AB.symm
        have b2 : m.heVertex (twin (m.heNext a0)) ≠ m.heVertex a0 := by rw [p2]; exact p4
        have L : m'.heLive (m.heNext a0) := (C.he _).2 ⟨l1, half_ne hv b1 b2 (Or.inl rfl), half_ne hv b1 b2 (Or.inr p3)⟩
        refine ⟨by rw [e]; exact L, ?_, by rw [e]; exact fun x => xa ((hv.ext_next la).1 x)⟩
        rw [e, C.vert _ L, if_neg b1, p1, if_pos (by rw [c1]; exact p3)]
      · have e : m.rimPlace a0 i = i := by unfold rimPlace; rw [if_neg c1]
        have L : m'.heLive i := by
          refine (C.he i).2 ⟨li, fun h => ?_, fun h => ?_⟩
          · rcases half_cases h with rfl | rfl
            · exact f1 rfl
            · exact ib rfl
          · rcases half_cases h with rfl | rfl
            · exact f1 (by rw [hv.face_next l1, hv.face_next la])
            · exact c1 rfl
        rw [e]
        exact ⟨L, C.vert i L, xi⟩
    refine ⟨key.1, by rw [C.ext _ key.1]; exact key.2.2, C.face i li f1 ib, key.2.1, ?_⟩
    rw [C.next i li f1 ib, if_neg]
    intro h
    exact xi ((hv.ext_next li).1 (h ▸ xb))

/-- A vertex with fewer than three edges, not at the boundary, is one of two triangles with all sides in common. -/
theorem doubled_of (hv : m.Valid) (tri : m.TriMesh) (hs : m.NoDouble) {a0 d : ℕ} (la : m.heLive a0) (xa : ¬ m.ext a0)
    (xb : ¬ m.ext (twin a0)) (hd : m.vDegree (m.heVertex a0) = .ok d) (d3 : d < 3) :
    twin (m.heNext (m.heNext a0)) = m.heNext (twin a0) ∧ twin (m.heNext a0) = m.heNext (m.heNext (twin a0)) := by
  have lb := hv.twin_live _ la
  have l1 := hv.next_live _ la
  have l2 := hv.next_live _ l1
  have k1 := hv.next_live _ lb
  have k2 := hv.next_live _ k1
  obtain ⟨p1, p2, p3, p4, p5⟩ := tri_ends hv tri hs la xa
  obtain ⟨q1, q2, q3, q4, q5⟩ := tri_ends hv tri hs lb xb
  rw [twin_twin] at q1 q5
  obtain ⟨l, -, nd, mem, -, -, dg, -⟩ := C49_vertex_outgoing m hv _ (hv.vertex_live _ la)
  rw [hd] at dg
  have dl : l.length < 3 := by injection dg with dg; omega
  have c : a0 ≠ m.heNext (twin a0) := by
    intro h
    exact q4 (by rw [← h]; exact p1)
  have n3 : m.heNext (twin (m.heNext (twin a0))) = a0 := by
    by_contra h
    have ne : m.heNext (twin (m.heNext (twin a0))) ≠ m.heNext (twin a0) := by
      intro e
      have := hv.next_inj (hv.twin_live _ k1) lb e
      exact c (twin_inj this).symm
    have ml : ∀ x ∈ [a0, m.heNext (twin a0), m.heNext (twin (m.heNext (twin a0)))], x ∈ l := by
      intro x hx
      simp only [List.mem_cons, List.not_mem_nil, or_false] at hx
      rcases hx with rfl | rfl | rfl
      · exact (mem _).2 ⟨la, rfl⟩
      · exact (mem _).2 ⟨k1, q1⟩
      · refine (mem _).2 ⟨hv.next_live _ (hv.twin_live _ k1), ?_⟩
        rw [hv.vertex_next (hv.twin_live _ k1), twin_twin, q1]
    have : [a0, m.heNext (twin a0), m.heNext (twin (m.heNext (twin a0)))].length ≤ l.length := by
      refine length_le_of_sub ?_ ml
      simp only [List.nodup_cons, List.mem_cons, List.not_mem_nil, or_false, not_or, not_false_eq_true, List.nodup_nil, and_true]
      exact ⟨⟨c, fun e => h e.symm⟩, fun e => ne e.symm⟩
    simp only [List.length_cons, List.length_nil] at this
    omega
  have e1 : twin (m.heNext (twin a0)) = m.heNext (m.heNext a0) :=
    hv.next_inj (hv.twin_live _ k1) l2 (by rw [n3, tri a0 la xa])
  have e2 : twin (m.heNext (m.heNext a0)) = m.heNext (twin a0) := by rw [← e1, twin_twin]
  refine ⟨e2, hs _ _ (hv.twin_live _ l1) k2 ?_ ?_⟩
  · rw [p2, ← e1, q2]
  · rw [twin_twin, p1, q3]

/-- One collapse is as it should be in a mesh without double edges. -/
theorem collapse_simple (hv : m.Valid) (tri : m.TriMesh) (hs : m.NoDouble) {e : ℕ} (he : m.heLive (2 * e)) :
    m.collapseEdgeTriangular e = .ok (m, INV) ∨ (m.collapseEdgeTriangular e = .error .throw ∧ m.Doubled e) ∨
    (∃ m' a0, m.collapseEdgeTriangular e = .ok (m', m.heVertex (twin a0)) ∧ m'.NoDouble ∧ m.heLive a0 ∧ ¬ m.ext a0 ∧
      ((¬ m.ext (2 * e + 1) ∧ (a0 = 2 * e ∨ a0 = 2 * e + 1) ∧ Collapsed m m' a0) ∨
       (m.ext (2 * e + 1) ∧ m.ext (twin a0) ∧ (a0 = 2 * e ∨ a0 = m.heNext (m.heNext (2 * e)) ∧ m.vDegree (m.heVertex (2 * e)) = .ok 2) ∧
         RimCollapsed m m' a0))) := by
  have t0 : twin (2 * e) = 2 * e + 1 := twin_two_mul e
  have t1 : twin (2 * e + 1) = 2 * e := twin_two_mul_add e
  have lt : m.heLive (2 * e + 1) := t0 ▸ hv.twin_live _ he
  have xh : ¬ m.ext (2 * e) := hv.edge_int e he
  obtain ⟨p1, p2, p3, p4, p5⟩ := tri_ends hv tri hs he xh
  have hd : m.heNext (2 * e) ≠ 2 * e + 1 := by
    intro h
    rw [h, t1] at p2
    exact p4 (by rw [h, ← p2])
  have hl : m.ext (2 * e + 1) → m.heNext (m.heNext (2 * e + 1)) ≠ 2 * e + 1 := by
    intro x h
    have ln := hv.next_live _ lt
    have : m.heNext (2 * e + 1) = 2 * e := by
      refine hs _ _ ln he ?_ ?_
      · rw [hv.vertex_next lt, t1]
      · rw [← hv.vertex_next ln, h, t0]
    exact xh (this ▸ (hv.ext_next lt).2 x)
  rcases C13_partial m hv tri e he hd hl with ⟨-, -, -, h⟩ | ⟨xt, a0, k1, -, h⟩ | ⟨xt, d, a0, hdeg, ha, xa, xb, h⟩
  · exact .inl h
  · have la : m.heLive a0 := by rcases k1 with h | h <;> rw [h] <;> assumption
    have xa : ¬ m.ext a0 := by rcases k1 with h | h <;> rw [h] <;> assumption
    have xb : ¬ m.ext (twin a0) := by
      rcases k1 with h | h <;> rw [h]
      · rw [t0]; exact xt
      · rw [t1]; exact xh
    rcases h with ⟨-, h⟩ | ⟨-, ⟨d, hdeg, d3⟩, h⟩ | ⟨np, -, m', h, C⟩
    · exact .inl h
    · refine .inr (.inl ⟨h, ?_⟩)
      obtain ⟨g1, g2⟩ := doubled_of hv tri hs la xa xb hdeg d3
      have lb := hv.twin_live _ la
      have l1 := hv.next_live _ la
      have k1' := hv.next_live _ lb
      have fA : m.heFace (twin (m.heNext a0)) = m.heFace (twin a0) := by rw [g2, hv.face_next k1', hv.face_next lb]
      have fB : m.heFace (twin (m.heNext (m.heNext a0))) = m.heFace (twin a0) := by rw [g1, hv.face_next lb]
      have fA' : m.heFace (twin (m.heNext (m.heNext (twin a0)))) = m.heFace a0 := by rw [← g2, twin_twin, hv.face_next la]
      have fB' : m.heFace (twin (m.heNext (twin a0))) = m.heFace a0 := by rw [← g1, twin_twin, hv.face_next l1, hv.face_next la]
      have mem : ∀ a i, m.heLive a → ¬ m.ext a → m.heLive i → m.heFace i = m.heFace a → i = a ∨ i = m.heNext a ∨ i = m.heNext (m.heNext a) := by
        intro a i la xa li h
        have o := (hv.face_iff a i la li).1 h.symm
        refine o.mem (fun z => z = a ∨ z = m.heNext a ∨ z = m.heNext (m.heNext a)) (.inl rfl) ?_
        rintro z (rfl | rfl | rfl)
        · exact .inr (.inl rfl)
        · exact .inr (.inr rfl)
        · exact .inl (tri _ la xa)
      intro i li hi
      rcases k1 with rfl | rfl
      · rw [t0] at fA fB
        rcases mem _ i la xa li hi with rfl | rfl | rfl
        · rw [t0]
        · exact fA
        · exact fB
      · rw [t1] at fA' fB'
        rcases mem _ i he xh li hi with rfl | rfl | rfl
        · rw [t0]
        · exact fB'
        · exact fA'
    · exact .inr (.inr ⟨m', a0, h, C.simple hv tri hs la xb np, la, xa, .inl ⟨xt, k1, C⟩⟩)
  · rcases h with ⟨-, h⟩ | ⟨n3, np, m', h, C⟩
    · exact .inl h
    · have l1 := hv.next_live _ he
      have l2 := hv.next_live _ l1
      by_cases d2 : d = 2
      · rw [if_pos d2] at ha
        have la : m.heLive a0 := ha ▸ l2
        have e1 : twin a0 = m.heNext (2 * e + 1) := by
          refine hv.bdy_unique _ _ (hv.twin_live _ la) (hv.next_live _ lt) xb ((hv.ext_next lt).2 xt) ?_
          rw [ha, p3, hv.vertex_next lt, t1]
        refine .inr (.inr ⟨m', a0, h, C.simple hv hs la xb (fun c => n3 ?_) np, la, xa, .inr ⟨xt, xb, .inr ⟨ha, d2 ▸ hdeg⟩, C⟩⟩)
        rw [e1] at c
        exact hv.next_inj (hv.next_live _ (hv.next_live _ (hv.next_live _ lt))) lt c
      · rw [if_neg d2] at ha
        subst ha
        exact .inr (.inr ⟨m', _, h, C.simple hv hs he xb (by rw [t0]; exact n3) np, he, xa, .inr ⟨xt, xb, .inl rfl, C⟩⟩)

end Mesh
end GC
