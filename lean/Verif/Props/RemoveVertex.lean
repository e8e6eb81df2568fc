import Verif.MeshRemoveVertex
import Verif.Props.Insert

/-! # Property C10: removeVertex -/

namespace GC
namespace Mesh

/-- A halfedge of a face at `v` that does not touch `v`: the outer ring. -/
def OuterRing (m : Mesh) (v x : ℕ) : Prop :=
  m.heLive x ∧ m.heVertex x ≠ v ∧ m.heVertex (twin x) ≠ v ∧ ∃ h, m.heLive h ∧ m.heVertex h = v ∧ m.heFace x = m.heFace h

/-- The star of `v` is an embedded disk: no edge from `v` to `v`, no face is at `v` twice or has degree two, the ring
passes through no vertex twice and uses no edge from both sides. -/
structure EmbeddedStar (m : Mesh) (v : ℕ) : Prop where
  no_self : ∀ h, m.heLive h → m.heVertex h = v → m.heVertex (twin h) ≠ v
  one_corner : ∀ h h', m.heLive h → m.heLive h' → m.heVertex h = v → m.heVertex h' = v → m.heFace h = m.heFace h' → h = h'
  no_bigon : ∀ h, m.heLive h → m.heVertex h = v → m.heNext (m.heNext h) ≠ h
  ring_vertex : ∀ x y, m.OuterRing v x → m.OuterRing v y → m.heVertex x = m.heVertex y → x = y
  ring_edge : ∀ x, m.OuterRing v x → ¬ m.OuterRing v (twin x)

theorem outerRing_iff {m : Mesh} {v : ℕ} {outs : List ℕ} {d : ℕ → ℕ} (S : Star m v outs d) {x : ℕ} :
    m.OuterRing v x ↔ IsRing m outs d x := by
  rw [S.ring_iff]
  unfold OuterRing
  constructor
  · rintro ⟨a, b, c, h, h1, h2, h3⟩
    exact ⟨a, b, c, h, (S.mem h).2 ⟨h1, h2⟩, h3⟩
  · rintro ⟨a, b, c, h, h1, h2⟩
    exact ⟨a, b, c, h, ((S.mem h).1 h1).1, ((S.mem h).1 h1).2, h2⟩

theorem Star.embedded {m : Mesh} {v : ℕ} {outs : List ℕ} {d : ℕ → ℕ} (S : Star m v outs d) : m.EmbeddedStar v := by
  have hv := S.valid
  refine ⟨?_, ?_, ?_, ?_, ?_⟩
  · intro h hl e e'
    exact S.no_self ((S.mem h).2 ⟨hl, e⟩) ((S.mem _).2 ⟨hv.twin_live _ hl, e'⟩)
  · intro h h' l l' e e' hf
    exact S.face_inj ((S.mem h).2 ⟨l, e⟩) ((S.mem h').2 ⟨l', e'⟩) hf
  · intro h hl e hb
    have hm := (S.mem h).2 ⟨hl, e⟩
    have := S.deg0 h hm
    exact (S.deg h hm).2 1 (by omega) hb
  · intro x y hx hy e
    exact S.ring_inj ((outerRing_iff S).1 hx) ((outerRing_iff S).1 hy) e
  · intro x hx hy
    exact twin_ne x (S.ring_edge ((outerRing_iff S).1 hy) ((outerRing_iff S).1 hx) (twin_div x))

theorem EmbeddedStar.star {m : Mesh} (hv : m.Valid) {v : ℕ} (E : m.EmbeddedStar v) {outs : List ℕ} {d : ℕ → ℕ}
    (hmem : ∀ h, h ∈ outs ↔ m.heLive h ∧ m.heVertex h = v) (hnd : outs.Nodup) (hdeg : ∀ h ∈ outs, DegOf m h (d h)) :
    (∀ h ∈ outs, d h ≠ 0) ∧
    (((outs.flatMap (fun h => RunOf m h (d h))).map (· / 2)).reverse ++ (outs.map (· / 2)).reverse).Nodup ∧
    (((outs.flatMap (fun h => RunOf m h (d h))).map m.heVertex).reverse ++ [v]).Nodup := by
  have h0 : ∀ h ∈ outs, d h ≠ 0 := by
    intro h hh e
    have := (hdeg h hh).1
    rw [e] at this
    exact E.no_bigon h ((hmem h).1 hh).1 ((hmem h).1 hh).2 this
  have hface : ∀ h ∈ outs, ∀ j, m.heLive (m.heNext^[j] h) ∧ m.heFace (m.heNext^[j] h) = m.heFace h := by
    intro h hh j
    have l := ((hmem h).1 hh).1
    have l' := hv.live_of_orb_next l ⟨j, rfl⟩
    exact ⟨l', ((hv.face_iff _ _ l l').2 ⟨j, rfl⟩).symm⟩
  have hring : ∀ h ∈ outs, ∀ x ∈ RunOf m h (d h), m.OuterRing v x ∧ m.heFace x = m.heFace h := by
    intro h hh x hx
    obtain ⟨j, hj, rfl⟩ := List.mem_map.1 hx
    rw [List.mem_range] at hj
    obtain ⟨l, f⟩ := hface h hh (j + 1)
    obtain ⟨lh, vh⟩ := (hmem h).1 hh
    refine ⟨⟨l, fun e => ?_, fun e => ?_, h, lh, vh, f⟩, f⟩
    · exact (hdeg h hh).2 j (by omega) (E.one_corner _ _ l lh e vh f)
    · obtain ⟨l2, f2⟩ := hface h hh (j + 1 + 1)
      refine (hdeg h hh).2 (j + 1) (by omega) (E.one_corner _ _ l2 lh ?_ vh f2)
      rw [Function.iterate_succ_apply', hv.vertex_next l, e]
  have hnodup : (outs.flatMap (fun h => RunOf m h (d h))).Nodup := by
    rw [List.nodup_flatMap]
    constructor
    · intro h hh
      have := orbit_range_nodup (f := m.heNext) (x := h) (k := d h + 1) (hdeg h hh).1 (fun j hj => (hdeg h hh).2 j hj)
      rw [List.nodup_map_iff_inj_on List.nodup_range] at this
      refine List.Nodup.map_on ?_ List.nodup_range
      intro i hi j hj e
      rw [List.mem_range] at hi hj
      have := this (i + 1) (List.mem_range.2 (by omega)) (j + 1) (List.mem_range.2 (by omega)) e
      omega
    · refine hnd.pairwise_of_forall_ne ?_
      intro h hh h' hh' hne x hx hx'
      apply hne
      obtain ⟨l, e⟩ := (hmem h).1 hh
      obtain ⟨l', e'⟩ := (hmem h').1 hh'
      exact E.one_corner _ _ l l' e e' (by rw [← (hring h hh x hx).2, (hring h' hh' x hx').2])
  have hR : ∀ x ∈ outs.flatMap (fun h => RunOf m h (d h)), m.OuterRing v x := by
    intro x hx
    obtain ⟨h, hh, hx⟩ := List.mem_flatMap.1 hx
    exact (hring h hh x hx).1
  refine ⟨h0, ?_, ?_⟩
  · rw [List.nodup_append, List.nodup_reverse, List.nodup_reverse]
    refine ⟨hnodup.map_on ?_, hnd.map_on ?_, ?_⟩
    · intro x hx y hy e
      rcases half_eq e with h | h
      · exact h
      · exact absurd (h ▸ hR x hx) (E.ring_edge y (hR y hy))
    · intro x hx y hy e
      rcases half_eq e with h | h
      · exact h
      · obtain ⟨lx, ex⟩ := (hmem x).1 hx
        obtain ⟨ly, ey⟩ := (hmem y).1 hy
        rw [h] at ex
        exact absurd ex (E.no_self y ly ey)
    · intro a ha b hb e
      rw [List.mem_reverse, List.mem_map] at ha hb
      obtain ⟨x, hx, rfl⟩ := ha
      obtain ⟨y, hy, rfl⟩ := hb
      obtain ⟨-, h1, h2, -⟩ := hR x hx
      rcases half_eq e with h | h
      · rw [h] at h1; exact h1 ((hmem y).1 hy).2
      · rw [h, twin_twin] at h2; exact h2 ((hmem y).1 hy).2
  · rw [List.nodup_append, List.nodup_reverse]
    refine ⟨hnodup.map_on fun x hx y hy e => E.ring_vertex x y (hR x hx) (hR y hy) e, by simp, ?_⟩
    intro a ha b hb
    rw [List.mem_reverse, List.mem_map] at ha
    obtain ⟨x, hx, rfl⟩ := ha
    rw [List.mem_singleton] at hb
    rw [hb]
    exact (hR x hx).2.1

/-- The full statement of **C10**: on an interior vertex the call refuses and leaves the mesh as it was, or it returns a valid
mesh with one vertex, `d` edges and `d - 1` faces fewer, where `d` is the degree of the vertex, in which the returned face
is bounded by the ring. -/
def C10Statement : Prop :=
  ∀ (m : Mesh), m.Valid → ∀ v, m.vLive v → ¬ m.vIsBoundary v →
    m.removeVertex v = .ok (m, INV) ∨
    ∃ m' f d, m.removeVertex v = .ok (m', f) ∧ m'.Valid ∧ m'.nV + 1 = m.nV ∧ m'.nE + d = m.nE ∧ m'.nF + d = m.nF + 1 ∧
      (∀ i, m'.heLive i → (m'.heFace i = f ↔ m.OuterRing v i))

/-- **C10**, except for a vertex of degree one inside a triangle (see `C10_fails`). Let `v` be an interior vertex of a valid
mesh. If its star is not an embedded disk the call returns the null face and the mesh is unchanged. If it is, the call
returns the face `f` of `v.halfedge()`, and the new mesh is valid; it has one vertex, `d` edges and `d - 1` faces fewer
(`d` the number of halfedges leaving `v`); exactly the halfedges touching `v` are gone; successors skip them; exactly the
halfedges of the outer ring lie in `f`, all others stay in their face; tail vertices are unchanged. -/
theorem C10_partial (m : Mesh) (hv : m.Valid) (v : ℕ) (hvl : m.vLive v) (hint : ¬ m.vIsBoundary v) :
    (¬ m.EmbeddedStar v → m.removeVertex v = .ok (m, INV)) ∧
    (m.EmbeddedStar v →
      (∀ h, m.heLive h → m.heVertex h = v → ¬ (m.heNext (twin h) = h ∧ m.heNext (m.heNext (m.heNext h)) = h)) →
      ∃ (m' : Mesh) (outs : List ℕ), m.removeVertex v = .ok (m', m.heFace (m.vHalfedge v)) ∧ m'.Valid ∧
        outs.Nodup ∧ (∀ h, h ∈ outs ↔ m.heLive h ∧ m.heVertex h = v) ∧
        m'.nV + 1 = m.nV ∧ m'.nE + outs.length = m.nE ∧ m'.nF + outs.length = m.nF + 1 ∧ m'.nHe + 2 * outs.length = m.nHe ∧
        m'.nBL = m.nBL ∧
        (∀ i, m'.heLive i ↔ m.heLive i ∧ m.heVertex i ≠ v ∧ m.heVertex (twin i) ≠ v) ∧
        (∀ u, m'.vLive u ↔ m.vLive u ∧ u ≠ v) ∧
        (∀ f, m'.fLive f ↔ m.fLive f ∧ (f = m.heFace (m.vHalfedge v) ∨ ∀ h, m.heLive h → m.heVertex h = v → m.heFace h ≠ f)) ∧
        (∀ i, m'.heLive i → m'.heVertex i = m.heVertex i ∧
          (m'.heFace i = m.heFace (m.vHalfedge v) ↔ m.OuterRing v i) ∧ (¬ m.OuterRing v i → m'.heFace i = m.heFace i) ∧
          m'.heNext i = (if m.heVertex (twin (m.heNext i)) = v then m.heNext (twin (m.heNext i)) else m.heNext i))) := by
  obtain ⟨outs, d, ho, hdeg, hc⟩ := removeVertex_cases hv hvl hint
  obtain ⟨outs', ho', hnd, hmem, k, hl, hcyc⟩ := hv.outgoingHalfedges_ok hvl
  have : outs = outs' := by rw [ho] at ho'; exact Except.ok.inj ho'
  subst this
  rcases hc with ⟨hr, hn⟩ | ⟨S, m', hr, T⟩
  · have hE : ¬ m.EmbeddedStar v := by
      intro E
      obtain ⟨a, b, c⟩ := E.star hv hmem hnd hdeg
      refine hn ⟨hv, hmem, hnd, by rw [hl]; simp, ?_, ?_, hdeg, a, b, c⟩
      · rw [hl, List.isChain_iff_getElem]
        intro i hi
        simp only [List.getElem_map, List.getElem_range]
        rw [Function.iterate_succ_apply']
      · intro a ha b hb
        rw [hl, List.range_succ, List.map_append, List.map_singleton, List.getLast?_concat] at ha
        rw [hl, List.range_succ_eq_map, List.map_cons, List.head?_cons] at hb
        rw [← Option.some.inj ha, ← Option.some.inj hb, ← Function.iterate_succ_apply' m.vNext]
        exact hcyc
    exact ⟨fun _ => hr, fun E => absurd E hE⟩
  · refine ⟨fun h => absurd S.embedded h, fun _ hmono => ⟨m', outs, hr, ?_⟩⟩
    obtain ⟨h1, h2, h3, h4, h5, h6, h7⟩ := rv_valid S T (fun h hh => hmono h ((hmem h).1 hh).1 ((hmem h).1 hh).2)
    have hpos : 0 < outs.length := by rw [hl]; simp
    refine ⟨h1, hnd, hmem, by rw [T.c_v]; omega, by rw [T.c_e]; omega, by rw [T.c_f]; omega, by rw [T.c_he]; omega, T.c_bl,
      T.live S, h6, ?_, ?_⟩
    · intro f
      rw [h7]
      simp only [hmem, and_imp]
    · intro i hi
      obtain ⟨a, b, c⟩ := (T.live S i).1 hi
      refine ⟨T.v_o i a b c, ?_, ?_, T.next_o i a b c⟩
      · rw [outerRing_iff S, S.ring_iff]
        by_cases hs : ∃ h ∈ outs, m.heFace i = m.heFace h
        · rw [T.f_s i a b c hs]
          exact iff_of_true rfl ⟨a, b, c, hs⟩
        · have hs' := hs
          push Not at hs'
          rw [T.f_o i a b c hs']
          refine iff_of_false (fun e => ?_) (fun h => hs h.2.2.2)
          obtain ⟨h, t, e1, e2⟩ := T.hkeep
          exact hs' h (by rw [e1]; simp) (by rw [e, e2])
      · intro hnr
        refine T.f_o i a b c (fun h hh e => hnr ?_)
        exact ⟨a, b, c, h, ((hmem h).1 hh).1, ((hmem h).1 hh).2, e⟩

/-- **C10, boundary vertices.** There the call throws. -/
theorem C10_boundary (m : Mesh) (v : ℕ) (hb : m.vIsBoundary v) : m.removeVertex v = .error .throw := by
  unfold removeVertex
  rw [if_pos hb]

/-- **C10 fails** for a vertex of degree one inside a triangle: the valid mesh `pillowFlipped` (two triangles, reached by one
edge flip) has such a vertex; the call returns normally and leaves a face with a single halfedge, its own successor. -/
theorem C10_fails : ∃ (m : Mesh) (v : ℕ) (m' : Mesh), m.Valid ∧ m.vLive v ∧ ¬ m.vIsBoundary v ∧
    m.removeVertex v = .ok (m', 1) ∧ m'.heLive 1 ∧ m'.heNext 1 = 1 ∧ ¬ m'.Valid := by
  refine ⟨pillowFlipped, 0, _, pillowFlipped_valid, by decide +kernel, by decide +kernel, rfl, by decide +kernel,
    by decide +kernel, fun hv => ?_⟩
  exact hv.deg_two 1 (by decide +kernel) (by decide +kernel)

theorem C10_statement_fails : ¬ C10Statement := by
  obtain ⟨m, v, m', h1, h2, h3, h4, -, -, h5⟩ := C10_fails
  intro h
  rcases h m h1 v h2 h3 with e | ⟨m2, f, d, e, e2, -⟩
  · rw [h4] at e
    have : (1 : ℕ) = INV := congrArg Prod.snd (Except.ok.inj e)
    exact absurd this (by decide)
  · rw [h4] at e
    have := congrArg Prod.fst (Except.ok.inj e)
    rw [← show m' = m2 from this] at e2
    exact h5 e2

/-- A case: removing a vertex of the tetrahedron leaves two triangles back to back. -/
example : tetra.Valid ∧ tetra.vLive 0 ∧ ¬ tetra.vIsBoundary 0 ∧
    (tetra.removeVertex 0).map (fun p => (p.1.nV, p.1.nE, p.1.nF, p.2)) = .ok (3, 3, 2, 0) :=
  ⟨tetra_valid, by decide +kernel, by decide +kernel, rfl⟩

/-- A case: with two triangles back to back the ring uses each edge twice, and the call refuses. -/
example : pillow.Valid ∧ pillow.vLive 0 ∧ ¬ pillow.vIsBoundary 0 ∧
    (pillow.removeVertex 0).map (fun p => (p.1.nV, p.1.nE, p.1.nF, p.2)) = .ok (3, 3, 2, INV) :=
  ⟨pillow_valid, by decide +kernel, by decide +kernel, rfl⟩

end Mesh
end GC
