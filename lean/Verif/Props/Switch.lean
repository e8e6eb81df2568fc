import Verif.MeshSwitch
import Verif.Props.Insert

/-! # Property C12: switchHalfedgeSides, ensureEdgeHasInteriorHalfedge -/

namespace GC
open Mesh

/-- **C12**, for edges without an endpoint of degree one. The call returns; the new mesh is the old one with
the two halfedges of `e` renamed into each other in the successor function, in the origins, in the faces and
(unless `e` is from a vertex to itself, where any outgoing halfedge may be stored) in the vertex references;
it is valid, except that the first halfedge of a boundary edge is now the exterior one; and a second call
restores the mesh.

Missing from the full property: edges with an endpoint of degree one, where it is false
(`C12_fails_degreeOne`), and the halfedges stored for the two faces of `e`, which become the two halfedges of
`e`, so that a second call need not restore them. -/
theorem C12_switchHalfedgeSides_partial (m : Mesh) (hv : m.Valid) (e : ℕ) (he : m.heLive (2 * e))
    (d1 : m.heNext (2 * e) ≠ 2 * e + 1) (d2 : m.heNext (2 * e + 1) ≠ 2 * e) :
    ∃ m', m.switchHalfedgeSides e = .ok (m', 2 * e) ∧
      (∀ i, m'.heLive i ↔ m.heLive i) ∧ (∀ v, m'.vLive v ↔ m.vLive v) ∧ (∀ f, m'.fLive f ↔ m.fLive f) ∧
      (∀ i, m.heLive i →
        m'.heNext (Equiv.swap (2 * e) (2 * e + 1) i) = Equiv.swap (2 * e) (2 * e + 1) (m.heNext i) ∧
        m'.heVertex (Equiv.swap (2 * e) (2 * e + 1) i) = m.heVertex i ∧
        m'.heFace (Equiv.swap (2 * e) (2 * e + 1) i) = m.heFace i) ∧
      (m.heVertex (2 * e) ≠ m.heVertex (2 * e + 1) →
        ∀ v, m.vLive v → m'.vHalfedge v = Equiv.swap (2 * e) (2 * e + 1) (m.vHalfedge v)) ∧
      m'.WeakValid ∧ (¬ m.ext (2 * e + 1) → m'.Valid) ∧ (m.ext (2 * e + 1) → m'.ext (2 * e) ∧ ¬ m'.ext (2 * e + 1)) ∧
      ∃ m'', m'.switchHalfedgeSides e = .ok (m'', 2 * e) ∧ m''.heNext = m.heNext ∧ m''.heVertex = m.heVertex ∧
        m''.heFace = m.heFace ∧ m''.Valid ∧
        (m.heVertex (2 * e) ≠ m.heVertex (2 * e + 1) → m''.vHalfedge = m.vHalfedge) ∧
        (∀ f, f ≠ m.heFace (2 * e) → f ≠ m.heFace (2 * e + 1) → m''.fHalfedge f = m.fHalfedge f) := by
  have tw : 2 * e + 1 = twin (2 * e) := (twin_two_mul e).symm
  have hA : eHalfedge e = 2 * e := rfl
  rw [tw] at d1 d2 ⊢
  have hw := hv.weak
  obtain ⟨m', h, S⟩ := switch_spec hw (e := e) he d1 d2
  have R := S.renamed hw he
  obtain ⟨hw', hx⟩ := R.weak hw he
  have lA' : m'.heLive (2 * e) := (R.live _).2 he
  have lB := hv.twin_live _ he
  have hint : ¬ m.ext (2 * e) := hv.edge_int e he
  have d1' : m'.heNext (eHalfedge e) ≠ twin (eHalfedge e) := by
    rw [hA, R.next _ he, swp_left]
    intro hh; have := congrArg (swp (2 * e) (twin (2 * e))) hh
    rw [swp_swp, swp_right] at this; exact d2 this
  have d2' : m'.heNext (twin (eHalfedge e)) ≠ eHalfedge e := by
    rw [hA, R.next _ lB, swp_right]
    intro hh; have := congrArg (swp (2 * e) (twin (2 * e))) hh
    rw [swp_swp, swp_left] at this; exact d1 this
  obtain ⟨m'', h2, S2⟩ := switch_spec hw' (e := e) lA' d1' d2'
  have R2 := S2.renamed hw' lA'
  obtain ⟨hw2, hx2⟩ := R2.weak hw' lA'
  rw [hA] at *
  have sl : ∀ i, m.heLive i → m.heLive (swp (2 * e) (twin (2 * e)) i) := by
    intro i hi; unfold swp; split_ifs
    · exact lB
    · exact he
    · exact hi
  have vA' : m'.heVertex (2 * e) = m.heVertex (twin (2 * e)) := by rw [S.vert, swp_left]
  have vB' : m'.heVertex (twin (2 * e)) = m.heVertex (2 * e) := by rw [S.vert, swp_right]
  have fA' : m'.heFace (2 * e) = m.heFace (twin (2 * e)) := by rw [S.face, swp_left]
  have fB' : m'.heFace (twin (2 * e)) = m.heFace (2 * e) := by rw [S.face, swp_right]
  refine ⟨m', h, R.live, R.vlive, R.flive, ?_, ?_, hw', ?_, ?_, m'', h2, ?_, ?_, ?_, ?_, ?_, ?_⟩
  · intro i hi
    simp only [← swp_eq_swap]
    rw [R.next _ (sl i hi), S.vert, S.face, swp_swp]
    exact ⟨rfl, rfl, rfl⟩
  · intro hs v vl
    rw [← swp_eq_swap]; exact S.vh hw he hs v vl
  · intro hB
    refine hw'.valid fun e' he' => ?_
    have l' := (R.live _).1 he'
    rw [hx _ l']
    by_cases c : e' = e
    · subst c; show ¬ m.ext (swp (2 * e') (twin (2 * e')) (2 * e')); rw [swp_left]; exact hB
    · have : swp (2 * e) (twin (2 * e)) (eHalfedge e') = eHalfedge e' := by
        apply swp_ne <;> unfold eHalfedge
        · omega
        · rw [← tw]; omega
      rw [this]; exact hv.edge_int e' l'
  · intro hB
    rw [hx _ he, hx _ lB, swp_left, swp_right]
    exact ⟨hB, hint⟩
  · funext i
    by_cases hi : m.heLive i
    · rw [R2.next i ((R.live i).2 hi), R.next _ (sl i hi), swp_swp, swp_swp]
    · rw [S2.next_d i (fun h => hi ((R.live i).1 h)), S.next_d i hi]
  · funext i; rw [S2.vert, S.vert, swp_swp]
  · funext i; rw [S2.face, S.face, swp_swp]
  · refine hw2.valid fun e' he' => ?_
    have l' := (R2.live _).1 he'
    have l := (R.live _).1 l'
    rw [hx2 _ l', hx _ (sl _ l), swp_swp]
    exact hv.edge_int e' l
  · intro hs
    funext v
    by_cases vl : m.vLive v
    · rw [S2.vh hw' lA' (by rw [vA', vB']; exact hs.symm) v ((R.vlive v).2 vl), S.vh hw he hs v vl, swp_swp]
    · have c1 : v ≠ m.heVertex (2 * e) := by rintro rfl; exact vl (hv.vertex_live _ he)
      have c2 : v ≠ m.heVertex (twin (2 * e)) := by rintro rfl; exact vl (hv.vertex_live _ lB)
      rw [S2.vh_o v (by rw [vA']; exact c2) (by rw [vB']; exact c1), S.vh_o v c1 c2]
  · intro f c1 c2
    rw [S2.fh, fA', fB', if_neg c2, if_neg c1, S.fh, if_neg c1, if_neg c2]

/-- An interior edge and a boundary edge meeting the hypotheses. -/
example : square.Valid ∧ square.heLive (2 * 2) ∧ square.heNext (2 * 2) ≠ 2 * 2 + 1 ∧ square.heNext (2 * 2 + 1) ≠ 2 * 2 ∧
    ¬ square.ext (2 * 2 + 1) ∧ square.heLive (2 * 0) ∧ square.heNext (2 * 0) ≠ 2 * 0 + 1 ∧
    square.heNext (2 * 0 + 1) ≠ 2 * 0 ∧ square.ext (2 * 0 + 1) :=
  ⟨square_valid, by decide +kernel⟩

/-- **C12, failure.** With an endpoint of degree one (reached by a flip that the library permits) the call
makes a halfedge its own successor: the result is not the renamed mesh and not valid. -/
theorem C12_fails_degreeOne : ∃ (m : Mesh) (e : ℕ) (m' : Mesh) (r : ℕ), m.Valid ∧ m.heLive (2 * e) ∧ m.switchHalfedgeSides e = .ok (m', r) ∧
    m'.heNext (2 * e) = 2 * e ∧ ¬ m'.WeakValid := by
  obtain ⟨m', h⟩ : ∃ m', pillowFlipped.switchHalfedgeSides 1 = .ok (m', 2) := ⟨_, rfl⟩
  have hm : m' = (pillowFlipped.switchHalfedgeSides 1).toOption.elim pillow Prod.fst := by rw [h]; rfl
  have hn : m'.heNext 2 = 2 := by rw [hm]; decide +kernel
  refine ⟨pillowFlipped, 1, m', 2, pillowFlipped_valid, by decide +kernel, h, hn, fun hw => ?_⟩
  exact hw.deg_two 2 (by rw [hm]; decide +kernel) hn

/-- **C12, `ensureEdgeHasInteriorHalfedge`.** In a mesh that is valid except that the first halfedge of `e`
may be exterior, and where `e` has an interior side and no endpoint of degree one, the call makes the mesh
valid; it reports whether it had to switch, and if not it changes nothing. -/
theorem C12_ensureEdgeHasInteriorHalfedge_partial (m : Mesh) (hw : m.WeakValid) (e : ℕ) (he : m.heLive (2 * e))
    (ho : ∀ e', e' ≠ e → m.heLive (2 * e') → ¬ m.ext (2 * e'))
    (hi : ¬ m.ext (2 * e) ∨ ¬ m.ext (2 * e + 1))
    (d1 : m.heNext (2 * e) ≠ 2 * e + 1) (d2 : m.heNext (2 * e + 1) ≠ 2 * e) :
    (¬ m.ext (2 * e) → m.ensureEdgeHasInteriorHalfedge e = .ok (m, false) ∧ m.Valid) ∧
    (m.ext (2 * e) → ∃ m', m.ensureEdgeHasInteriorHalfedge e = .ok (m', true) ∧ m'.Valid ∧
      ∀ i, m.heLive i →
        m'.heNext (Equiv.swap (2 * e) (2 * e + 1) i) = Equiv.swap (2 * e) (2 * e + 1) (m.heNext i) ∧
        m'.heVertex (Equiv.swap (2 * e) (2 * e + 1) i) = m.heVertex i ∧
        m'.heFace (Equiv.swap (2 * e) (2 * e + 1) i) = m.heFace i) := by
  have tw : 2 * e + 1 = twin (2 * e) := (twin_two_mul e).symm
  have hA : eHalfedge e = 2 * e := rfl
  rw [tw] at hi d1 d2 ⊢
  have hB : ∀ i, m.heIsInterior i ↔ ¬ m.ext i := fun i => Iff.rfl
  constructor
  · intro hint
    refine ⟨?_, hw.valid fun e' he' => ?_⟩
    · unfold ensureEdgeHasInteriorHalfedge
      rw [if_neg (not_not.2 ((hB (eHalfedge e)).2 hint))]
    · by_cases c : e' = e
      · subst c; exact hint
      · exact ho e' c he'
  · intro hext
    obtain ⟨m', h, S⟩ := switch_spec hw (e := e) he d1 d2
    have R := S.renamed hw he
    obtain ⟨hw', hx⟩ := R.weak hw he
    rw [hA] at *
    refine ⟨m', ?_, hw'.valid fun e' he' => ?_, ?_⟩
    · unfold ensureEdgeHasInteriorHalfedge
      rw [if_pos (by rw [hB, not_not]; exact hext), h]
    · have l' := (R.live _).1 he'
      rw [hx _ l']
      by_cases c : e' = e
      · subst c; show ¬ m.ext (swp (2 * e') (twin (2 * e')) (2 * e')); rw [swp_left]
        exact hi.resolve_left (not_not.2 hext)
      · have : swp (2 * e) (twin (2 * e)) (eHalfedge e') = eHalfedge e' := by
          apply swp_ne <;> unfold eHalfedge
          · omega
          · rw [← tw]; omega
        rw [this]; exact ho e' c l'
    · intro i hi
      simp only [← swp_eq_swap]
      have sl : m.heLive (swp (2 * e) (twin (2 * e)) i) := by
        unfold swp; split_ifs
        · exact hw.twin_live _ he
        · exact he
        · exact hi
      rw [R.next _ sl, S.vert, S.face, swp_swp]
      exact ⟨rfl, rfl, rfl⟩

/-- The hypotheses with an exterior first halfedge are met by `square` after switching its boundary edge 0. -/
example : ∃ m : Mesh, m.WeakValid ∧ m.heLive (2 * 0) ∧ m.ext (2 * 0) ∧ ¬ m.ext (2 * 0 + 1) ∧
    m.heNext (2 * 0) ≠ 2 * 0 + 1 ∧ m.heNext (2 * 0 + 1) ≠ 2 * 0 := by
  obtain ⟨m', h, l, -, -, n, -, w, -, x, -⟩ :=
    C12_switchHalfedgeSides_partial square square_valid 0 (by decide +kernel) (by decide +kernel) (by decide +kernel)
  have n0 := (n 1 (by decide +kernel)).1
  have n1 := (n 0 (by decide +kernel)).1
  have s0 : Equiv.swap (2 * 0) (2 * 0 + 1) 1 = 0 := by decide +kernel
  have s1 : Equiv.swap (2 * 0) (2 * 0 + 1) 0 = 1 := by decide +kernel
  rw [s0] at n0
  rw [s1] at n1
  refine ⟨m', w, (l _).2 (by decide +kernel), (x (by decide +kernel)).1, (x (by decide +kernel)).2, ?_, ?_⟩
  · show m'.heNext 0 ≠ 1
    rw [n0]; decide +kernel
  · show m'.heNext 1 ≠ 0
    rw [n1]; decide +kernel

end GC
