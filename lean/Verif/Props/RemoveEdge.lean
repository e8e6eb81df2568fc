import Verif.MeshRemoveEdge
import Verif.Props.Connect
import Verif.Props.Insert

/-! # Property C09: removeEdge -/

namespace GC
open Mesh

/-- **C09.** On an interior edge `e` of a valid mesh, `removeEdge` returns the null face and the mesh as it
was if both sides of `e` are the same face. Otherwise it returns the face of `2e` and a valid mesh with one
edge and one face fewer, in which exactly the two halfedges of `e` are gone, the successor function skips
them, the face on the other side has been merged into the returned one, and vertices are unchanged. -/
theorem C09_removeEdge (m : Mesh) (hv : m.Valid) (e : ℕ) (he : m.heLive (2 * e)) (hint : ¬ m.ext (2 * e + 1)) :
    (m.heFace (2 * e) = m.heFace (2 * e + 1) → m.removeEdge e = .ok (m, INV)) ∧
    (m.heFace (2 * e) ≠ m.heFace (2 * e + 1) →
      ∃ m', m.removeEdge e = .ok (m', m.heFace (2 * e)) ∧ m'.Valid ∧
        m'.nE + 1 = m.nE ∧ m'.nF + 1 = m.nF ∧ m'.nV = m.nV ∧ m'.nBL = m.nBL ∧ m'.nHe + 2 = m.nHe ∧
        (∀ i, m'.heLive i ↔ m.heLive i ∧ i ≠ 2 * e ∧ i ≠ 2 * e + 1) ∧
        (∀ f, m'.fLive f ↔ m.fLive f ∧ f ≠ m.heFace (2 * e + 1)) ∧
        (∀ v, m'.vLive v ↔ m.vLive v) ∧
        (∀ i, m'.heLive i → m'.heVertex i = m.heVertex i ∧
          m'.heFace i = (if m.heFace i = m.heFace (2 * e + 1) then m.heFace (2 * e) else m.heFace i) ∧
          m'.heNext i = (if m.heNext i = 2 * e then m.heNext (2 * e + 1)
            else if m.heNext i = 2 * e + 1 then m.heNext (2 * e) else m.heNext i))) := by
  rcases rem_spec hv he with ⟨h, -⟩ | ⟨hf, h⟩ | ⟨hf, m', h, S⟩
  · exact absurd h hint
  · exact ⟨fun _ => h, fun hn => absurd hf hn⟩
  refine ⟨fun h' => absurd h' hf, fun _ => ⟨m', h, ?_⟩⟩
  obtain ⟨hval, -, h1, h2, h3⟩ := rem_valid hv S
  have hlive := S.live hv
  have lB : m.heLive (2 * e + 1) := by rw [S.hB]; exact hv.twin_live _ he
  refine ⟨hval, by rw [S.c_e]; omega, by rw [S.c_f]; omega, S.c_v, S.c_bl, by rw [S.c_he]; omega, hlive, ?_, ?_, ?_⟩
  · intro f
    unfold fLive
    rw [S.c_fFill, S.c_fCap, S.c_blFill, S.fh]
    by_cases c1 : f = m.heFace (2 * e + 1)
    · simp [c1]
    rw [if_neg c1]
    by_cases c2 : f = m.heFace (2 * e)
    · rw [if_pos c2]
      have := hv.face_live _ he
      refine iff_of_true ⟨by rw [c2]; exact this.1, (hv.live_lt_INV (hv.next_live _ he)).ne⟩ ⟨?_, c1⟩
      rw [c2]; exact this
    · rw [if_neg c2]; simp [c1]
  · intro v
    unfold vLive; rw [S.c_vFill]
    by_cases c : m.vLive v ∧ (m.vHalfedge v = 2 * e ∨ m.vHalfedge v = 2 * e + 1)
    · refine iff_of_true ⟨c.1.1, ?_⟩ c.1
      rcases (S.vh_e v c.1 c.2).1 with h | h <;> rw [h]
      · exact (hv.live_lt_INV (hv.next_live _ he)).ne
      · exact (hv.live_lt_INV (hv.next_live _ lB)).ne
    · rw [S.vh_o v c]
  · intro i hi
    obtain ⟨a, b, c⟩ := (hlive i).1 hi
    exact ⟨S.v_o i a b c, S.f_o i a b c, S.next_o i a b c⟩

/-- **C09, boundary edges.** There the call throws. -/
theorem C09_removeEdge_boundary (m : Mesh) (hv : m.Valid) (e : ℕ) (he : m.heLive (2 * e)) (hb : m.ext (2 * e + 1)) :
    m.removeEdge e = .error .throw := by
  rcases rem_spec hv he with ⟨_, h⟩ | ⟨hf, _⟩ | ⟨hf, m', h, S⟩
  · exact h
  · have := hv.edge_int e he; unfold ext eHalfedge at *; omega
  · exact absurd hb S.iB

/-- **C09, inverse.** Removing the edge that `connectVertices` has just added restores the halfedges, their
successors, vertices and faces (boundary loops may have moved to a new index because the face storage grew)
and all element counts. -/
theorem C09_undoes_connectVertices (m : Mesh) (hv : m.Valid) (A B : ℕ) (lA : m.heLive A) (lB : m.heLive B)
    (hf : m.heFace A = m.heFace B) (hint : m.heFace A < m.nFFill) (hAB : A ≠ B)
    (h1 : m.heNext A ≠ B) (h2 : m.heNext B ≠ A) (m' : Mesh) (n : ℕ) (hc : m.connectVertices A B = .ok (m', n)) :
    ∃ m'', m'.removeEdge (n / 2) = .ok (m'', m.heFace A) ∧ m''.Valid ∧
      m''.nV = m.nV ∧ m''.nE = m.nE ∧ m''.nF = m.nF ∧ m''.nBL = m.nBL ∧ m''.nHe = m.nHe ∧
      (∀ i, m''.heLive i ↔ m.heLive i) ∧
      (∀ i, m.heLive i → m''.heNext i = m.heNext i ∧ m''.heVertex i = m.heVertex i ∧
        (¬ m.ext i → m''.heFace i = m.heFace i) ∧ (m''.ext i ↔ m.ext i)) := by
  rcases C05_connectVertices m hv A B lA lB hf hint hAB h1 h2 with ⟨h, -⟩ | ⟨m1, h, hv1, cV, cE, cF, cB, cH, cFF, -, -, new, live,
    vn, tipn, fn, fn', nx, nx', nxo, vo, vh, fo, fo', ex⟩
  · rw [h] at hc; exact absurd hc (by simp)
  rw [h] at hc; injection hc with hc; injection hc with e1 e2
  subst e1; subst e2
  have hN := hv.he_fill
  have hn2 : 2 * (m.nHeFill / 2) = m.nHeFill := by omega
  have ln : m1.heLive m.nHeFill := (live _).2 (Or.inr (Or.inl rfl))
  have ln' : m1.heLive (m.nHeFill + 1) := (live _).2 (Or.inr (Or.inr rfl))
  have key := C09_removeEdge m1 hv1 (m.nHeFill / 2) (by rw [hn2]; exact ln) (by
    rw [hn2]; unfold ext; rw [fn', cFF]; omega)
  rw [hn2, fn, fn'] at key
  obtain ⟨m2, hr, hv2, dE, dF, dV, dB, dH, live2, flive2, vlive2, pt⟩ := key.2 (by omega)
  refine ⟨m2, hr, hv2, by omega, by omega, by omega, by omega, by omega, ?_, ?_⟩
  · intro i
    rw [live2, live]
    constructor
    · rintro ⟨h | h | h, a, b⟩
      · exact h
      · exact absurd h a
      · exact absurd h b
    · intro h; have := h.1; exact ⟨Or.inl h, by omega, by omega⟩
  · intro i hi
    have hlt := hi.1
    have li : m2.heLive i := (live2 i).2 ⟨(live i).2 (Or.inl hi), by omega, by omega⟩
    obtain ⟨p1, p2, p3⟩ := pt i li
    rw [nx, nx', nxo i hi] at p3
    have nlt := (hv.next_live i hi).1
    refine ⟨?_, by rw [p1, vo i hi], ?_, ?_⟩
    · rw [p3]
      by_cases c1 : m.heNext i = A
      · rw [if_pos c1, if_pos rfl, c1]
      · rw [if_neg c1]
        by_cases c2 : m.heNext i = B
        · rw [if_pos c2, if_neg (by omega), if_pos rfl, c2]
        · rw [if_neg c2, if_neg (by omega), if_neg (by omega)]
    · intro x
      have hlt := Valid.face_lt x
      rw [p2]
      by_cases c : m.heFace i = m.heFace A
      · rcases fo' i hi c with h | h
        · rw [h, if_neg (by omega), c]
        · rw [h, if_pos rfl, c]
      · rw [fo i hi hlt c, if_neg (by omega)]
    · have x2 : m2.ext i ↔ m1.ext i := by
        unfold ext
        have hm2 : m2.nFFill = m1.nFFill := by
          rcases rem_spec hv1 (show m1.heLive (2 * (m.nHeFill / 2)) by rw [hn2]; exact ln) with
            ⟨_, h⟩ | ⟨_, h⟩ | ⟨_, m3, h, S⟩
          · rw [hr] at h; exact absurd h (by simp)
          · rw [hr] at h; injection h with h; injection h with h h'; rw [h]
          · rw [hr] at h; injection h with h; injection h with h h'; rw [h]; exact S.c_fFill
        rw [hm2, p2]
        split_ifs with c
        · rw [c, cFF]; omega
        · rfl
      rw [x2, ex i hi]

/-- The hypotheses are met: the diagonal of `square` can be removed; an edge with one face on both sides is
refused. -/
example : square.Valid ∧ square.heLive (2 * 2) ∧ ¬ square.ext (2 * 2 + 1) ∧
    square.heFace (2 * 2) ≠ square.heFace (2 * 2 + 1) ∧
    (∃ m', square.removeEdge 2 = .ok (m', 0) ∧ m'.nE = 4 ∧ m'.nF = 1) ∧
    pillowFlipped.Valid ∧ pillowFlipped.heLive (2 * 1) ∧ ¬ pillowFlipped.ext (2 * 1 + 1) ∧
    pillowFlipped.heFace (2 * 1) = pillowFlipped.heFace (2 * 1 + 1)  :=
  ⟨square_valid, by decide +kernel, by decide +kernel, by decide +kernel, ⟨_, rfl, by decide +kernel⟩,
    pillowFlipped_valid, by decide +kernel, by decide +kernel, by decide +kernel⟩

/-- The hypotheses of the inverse theorem are met by the quad. -/
example : quad.Valid ∧ quad.heLive 0 ∧ quad.heLive 4 ∧ quad.heFace 0 = quad.heFace 4 ∧ quad.heFace 0 < quad.nFFill ∧
    quad.heNext 0 ≠ 4 ∧ quad.heNext 4 ≠ 0 ∧
    ∃ m' n, quad.connectVertices 0 4 = .ok (m', n) ∧ (∃ m'', m'.removeEdge (n / 2) = .ok (m'', 0) ∧ m''.nF = 1) :=
  ⟨quad_valid, by decide +kernel, by decide +kernel, by decide +kernel, by decide +kernel, by decide +kernel,
    by decide +kernel, _, _, rfl, _, rfl, by decide +kernel⟩

end GC
