import Verif.MeshCollapseFin

/-!
The interior case of `collapseEdgeTriangular` (manifold_surface_mesh.cpp:1134-1265).
-/

namespace GC
namespace Mesh

variable {m : Mesh}

/-- The halfedges leaving a vertex are found by rotation. -/
theorem Valid.out_closed (hv : m.Valid) {a : ℕ} (la : m.heLive a) {P : ℕ → Prop} (h0 : P a)
    (hs : ∀ z, P z → P (m.heNext (twin z))) {i : ℕ} (li : m.heLive i) (h : m.heVertex i = m.heVertex a) : P i :=
  ((hv.vertex_iff a i la li).1 h.symm).mem P h0 hs

theorem length_le_of_sub {l k : List ℕ} (nd : l.Nodup) (h : ∀ i ∈ l, i ∈ k) : l.length ≤ k.length :=
  (List.Nodup.subperm nd h).length_le

theorem int_go (hv : m.Valid) (tri : m.TriMesh) {a0 : ℕ} (la : m.heLive a0) (xa : ¬ m.ext a0)
    (xb : ¬ m.ext (twin a0)) (inA : ∀ i, m.heLive i → m.heVertex i = m.heVertex a0 → ¬ m.ext i)
    (d1 : m.heNext a0 ≠ twin a0) (d2 : m.heNext (twin a0) ≠ a0) :
    (m.Pinch a0 ∧ m.collapseIntGo a0 = .ok (m, INV)) ∨
    (¬ m.Pinch a0 ∧ m.vDegree (m.heVertex a0) = .ok 2 ∧ m.collapseIntGo a0 = .error .throw) ∨
    (¬ m.Pinch a0 ∧ ∃ d, m.vDegree (m.heVertex a0) = .ok d ∧ 3 ≤ d ∧
      ∃ m' a1 a2 b0 b1 b2 c0 c1 c2 d0 d1 d2, Inner m a0 a1 a2 b0 b1 b2 c0 c1 c2 d0 d1 d2 ∧
        (c1 = d1 ∨ m.heFace c2 ≠ m.heFace d1) ∧ Fin m m' a0 a1 a2 b0 b1 b2 c0 c1 c2 d0 d1 d2 ∧
        m.collapseIntGo a0 = .ok (m', m.heVertex b0)) := by
  have vA := hv.vertex_live _ la
  obtain ⟨l, -, nd, mem, -, -, dg, -⟩ := C49_vertex_outgoing m hv _ vA
  obtain ⟨outs, ho, -, ho2, -⟩ := hv.outgoingHalfedges_ok vA
  rcases isPinch_ok hv la with ⟨p1, p2⟩ | ⟨p1, p2⟩
  · left
    refine ⟨p2, ?_⟩
    unfold collapseIntGo; rw [p1]
  right
  have lb := hv.twin_live _ la
  by_cases d3 : twin (m.heNext (m.heNext a0)) = m.heNext (twin a0)
  · left
    have na2 := tri a0 la xa
    have cl : ∀ i ∈ l, i ∈ [a0, m.heNext (twin a0)] := by
      intro i hi
      obtain ⟨h1, h2⟩ := (mem i).1 hi
      have := hv.out_closed la (P := fun i => i = a0 ∨ i = m.heNext (twin a0)) (Or.inl rfl) (by
        rintro z (h | h)
        · rw [h]; exact Or.inr rfl
        · rw [h, ← d3, twin_twin, na2]; exact Or.inl rfl) h1 h2
      simpa using this
    have le := length_le_of_sub nd cl
    have ge := length_le_of_sub (l := [a0, m.heNext (twin a0)]) (k := l) (by simpa using fun h => d2 h.symm) (by
      intro i hi
      rw [mem]
      rcases List.mem_pair.1 hi with h | h
      · rw [h]; exact ⟨la, rfl⟩
      · rw [h]; exact ⟨hv.next_live _ lb, by rw [hv.vertex_next lb, twin_twin]⟩)
    have e : l.length = 2 := le_antisymm le ge
    rw [e] at dg
    refine ⟨p2, dg, ?_⟩
    unfold collapseIntGo
    rw [p1]; dsimp only
    rw [dg]; dsimp only
    rw [if_neg (by omega), if_neg (by omega)]
  · right
    obtain ⟨a1, a2, b0, b1, b2, c0, c1, c2, e0, e1, e2, I, hc⟩ := inner_of hv tri la xa xb inA p2 d1 d2 d3
    have n1 : a0 ≠ b1 := fun h => I.fAB (by rw [h, I.fb1])
    have n2 : a0 ≠ c2 := fun h => I.fAC (by rw [h])
    have n3 : c2 ≠ b1 := fun h => I.fBC (by rw [h, I.fb1])
    by_cases cd : c1 = e1
    · have e2c : e2 = c2 := by rw [← I.nd1, ← cd, I.nc1]
      have cl : ∀ i, m.heLive i → m.heVertex i = m.heVertex a0 → i = a0 ∨ i = c2 ∨ i = b1 := by
        intro i h1 h2
        refine hv.out_closed la (P := fun i => i = a0 ∨ i = c2 ∨ i = b1) (Or.inl rfl) ?_ h1 h2
        rintro z (h | h | h)
        · rw [h, I.tb, I.nb0]; exact Or.inr (Or.inr rfl)
        · rw [h, ← I.tc, twin_twin, I.na2]; exact Or.inl rfl
        · rw [h, I.td, I.nd1, e2c]; exact Or.inr (Or.inl rfl)
      have le := length_le_of_sub (k := [a0, c2, b1]) nd (by
        intro i hi
        obtain ⟨h1, h2⟩ := (mem i).1 hi
        have := cl i h1 h2; simpa using this)
      have ge := length_le_of_sub (l := [a0, c2, b1]) (k := l) (by simp [n1, n2, n3]) (by
        intro i hi
        rw [mem]
        have : i = a0 ∨ i = c2 ∨ i = b1 := by simpa using hi
        rcases this with h | h | h <;> rw [h]
        · exact ⟨la, rfl⟩
        · exact ⟨I.lc2, I.vc2⟩
        · exact ⟨I.lb1, I.vb1⟩)
      have e : l.length = 3 := le_antisymm le ge
      rw [e] at dg
      refine ⟨p2, 3, dg, le_refl _, _, a1, a2, b0, b1, b2, c0, c1, c2, e0, e1, e2, I, hc, fin_three hv I cd cl, ?_⟩
      unfold collapseIntGo
      rw [p1]; dsimp only
      rw [dg]; dsimp only
      rw [if_neg (by omega), if_pos rfl, I.tb]
    · have n4 : e2 ≠ a0 := fun h => I.fAD (by rw [← I.fd2, h])
      have n5 : e2 ≠ b1 := fun h => I.fBD (by rw [← I.fd2, h, I.fb1])
      have hc' := hc.resolve_left cd
      have n6 : e2 ≠ c2 := fun h => hc' (by rw [← I.fd2, h])
      have ge := length_le_of_sub (l := [a0, c2, b1, e2]) (k := l) (by simp [n1, n2, n3, n4.symm, n5.symm, n6.symm]) (by
        intro i hi
        rw [mem]
        have : i = a0 ∨ i = c2 ∨ i = b1 ∨ i = e2 := by simpa using hi
        rcases this with h | h | h | h <;> rw [h]
        · exact ⟨la, rfl⟩
        · exact ⟨I.lc2, I.vc2⟩
        · exact ⟨I.lb1, I.vb1⟩
        · exact ⟨I.ld2, I.vd2⟩)
      have ge' : 4 ≤ l.length := ge
      refine ⟨p2, _, dg, by omega, _, a1, a2, b0, b1, b2, c0, c1, c2, e0, e1, e2, I, hc, fin_big hv I hc' ho2, ?_⟩
      unfold collapseIntGo
      rw [p1]; dsimp only
      rw [dg]; dsimp only
      rw [if_pos (by omega), ho, I.tb]

end Mesh
end GC
