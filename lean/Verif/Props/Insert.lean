import Verif.MeshInsert
import Verif.Props.Flip

/-! # Property C04: insertVertexAlongEdge -/

namespace GC
open Mesh

theorem ivae_live {m m' : Mesh} (hv : m.Valid) {A B pA n0 n1 nv : ℕ}
    (S : IvaeSpec m m' A B pA n0 n1 nv) (i : ℕ) : m'.heLive i ↔ (i = n0 ∨ i = n1 ∨ m.heLive i) := by
  have lB : m.heLive B := by rw [S.hB]; exact hv.twin_live _ S.lA
  have cap := S.c_heCap
  have e0 := S.hn0; have e1 := S.hn1
  have lt := S.lA.1
  unfold heLive
  rw [S.c_heFill]
  by_cases h0 : i = n0
  · subst h0; rw [S.next_n0]; simp only [true_or, iff_true]; omega
  by_cases h1 : i = n1
  · subst h1; rw [S.next_n1]; simp only [true_or, or_true, iff_true]; exact ⟨by omega, (hv.live_lt_INV (hv.next_live _ lB)).ne⟩
  by_cases h2 : i = B
  · subst h2; rw [S.next_B]; simp only [h0, h1, false_or]
    exact iff_of_true ⟨by have := lB.1; omega, by omega⟩ lB
  by_cases h3 : i = pA
  · subst h3; rw [S.next_p]; simp only [h0, h1, false_or]
    exact iff_of_true ⟨by have := S.lp.1; omega, by omega⟩ S.lp
  rw [S.next_o i h0 h1 h2 h3]; simp only [h0, h1, false_or]
  constructor
  · rintro ⟨a, b⟩; exact ⟨by omega, b⟩
  · rintro ⟨a, b⟩; exact ⟨by omega, b⟩

/-- **C04, partial.** Full claim: `insertVertexAlongEdge` works on *every* edge of a valid mesh. Missing:
edges whose first halfedge starts at a vertex of degree one (`C04_insertVertexAlongEdge_fails`).
On all other edges the call either runs out of memory (only when doubling the storage would exceed the index
range, `nearLimit`) or yields a valid mesh with one more vertex and one
more edge. The new vertex `m.nVFill` has exactly two outgoing halfedges, the returned one (which keeps its
tip and face) and the new one `m.nHeFill + 1`; the new edge runs from the old tail to the new vertex; the
faces of all old halfedges are unchanged, so each adjacent face has exactly one more side. -/
theorem C04_insertVertexAlongEdge_partial (m : Mesh) (hv : m.Valid) (e : ℕ) (he : m.heLive (2 * e))
    (hdeg : m.heNext (2 * e + 1) ≠ 2 * e) :
    (m.insertVertexAlongEdge e = .error .oom ∧ m.nearLimit 1) ∨
    ∃ m', m.insertVertexAlongEdge e = .ok (m', 2 * e) ∧ m'.Valid ∧
      m'.nV = m.nV + 1 ∧ m'.nE = m.nE + 1 ∧ m'.nF = m.nF ∧ m'.nBL = m.nBL ∧ m'.nHe = m.nHe + 2 ∧
      ¬ m.vLive m.nVFill ∧
      (∀ i, m'.heLive i ↔ (m.heLive i ∨ i = m.nHeFill ∨ i = m.nHeFill + 1)) ∧
      (∀ i, m'.heLive i → (m'.heVertex i = m.nVFill ↔ i = 2 * e ∨ i = m.nHeFill + 1)) ∧
      m'.tip (2 * e) = m.tip (2 * e) ∧
      m'.heVertex m.nHeFill = m.heVertex (2 * e) ∧ m'.tip m.nHeFill = m.nVFill ∧
      m'.heNext m.nHeFill = 2 * e ∧ m'.heNext (2 * e + 1) = m.nHeFill + 1 ∧
      (∀ i, m.heLive i → m'.heFace i = m.heFace i) ∧
      m'.heFace m.nHeFill = m.heFace (2 * e) ∧ m'.heFace (m.nHeFill + 1) = m.heFace (2 * e + 1) := by
  have tw : twin (2 * e) = 2 * e + 1 := twin_two_mul e
  rcases ivae_spec hv (e := e) he (by unfold eHalfedge; rw [tw]; exact hdeg) with h | ⟨m', pA, h, S⟩
  · exact Or.inl h
  right
  have hval := ivae_valid hv S
  have hlive := ivae_live hv S
  have lt : ∀ {i}, m.heLive i → i ≠ m.nHeFill ∧ i ≠ m.nHeFill + 1 := by
    intro i hi; have := hi.1; constructor <;> omega
  have vnv : ∀ {i}, m.heLive i → m.heVertex i ≠ m.nVFill := fun hi => ne_of_lt (hv.vertex_live _ hi).1
  have tn0 : twin m.nHeFill = m.nHeFill + 1 := by rw [hv.he_fill, twin_two_mul]
  have hl0 : m'.heLive m.nHeFill := (hlive _).2 (Or.inl rfl)
  have hA : m'.heLive (2 * e) := (hlive _).2 (Or.inr (Or.inr he))
  have lB : m.heLive (2 * e + 1) := by rw [← tw]; exact hv.twin_live _ he
  unfold eHalfedge at S
  rw [tw] at S
  refine ⟨m', h, hval, S.c_v, S.c_e, S.c_f, S.c_bl, S.c_he, fun h => absurd h.1 (lt_irrefl _), ?_, ?_, ?_,
    S.v_n0, ?_, S.next_n0, S.next_B, ?_, S.f_n0, S.f_n1⟩
  · intro i; rw [hlive]; tauto
  · intro i hi
    constructor
    · intro hvi
      by_contra hne
      push Not at hne
      by_cases h0 : i = m.nHeFill
      · subst h0; rw [S.v_n0] at hvi; exact vnv he hvi
      · have li : m.heLive i := by rcases (hlive i).1 hi with h | h | h <;> tauto
        rw [S.v_o i h0 hne.2 hne.1] at hvi; exact vnv li hvi
    · rintro (rfl | rfl)
      · exact S.v_A
      · exact S.v_n1
  · have e1 := hval.vertex_next hA
    have e2 := hv.vertex_next he
    unfold tip
    rw [e1, e2, tw]
    exact S.v_o _ (lt lB).1 (lt lB).2 (by omega)
  · have := hval.vertex_next hl0
    unfold tip; rw [this, tn0]; exact S.v_n1
  · intro i hi; exact S.f_o i (lt hi).1 (lt hi).2

/-- The hypotheses are met, by an interior and by a boundary edge. -/
example : square.Valid ∧ square.heLive (2 * 2) ∧ square.heNext (2 * 2 + 1) ≠ 2 * 2 ∧
    square.heLive (2 * 0) ∧ square.heNext (2 * 0 + 1) ≠ 2 * 0 ∧
    (∃ m', square.insertVertexAlongEdge 0 = .ok (m', 0) ∧ m'.nInt = 7) ∧
    (∃ m', square.insertVertexAlongEdge 2 = .ok (m', 4) ∧ m'.nInt = 8) :=
  ⟨square_valid, by decide +kernel, by decide +kernel, by decide +kernel, by decide +kernel,
   ⟨_, rfl, by decide +kernel⟩, ⟨_, rfl, by decide +kernel⟩⟩

/-- Two triangles on a sphere sharing a self-edge; vertices 0 and 1 have degree one. This is `pillow`
after flipping edge 0. -/
def pillowFlipped : Mesh := pillow.flipCore 0

theorem pillowFlipped_reached : pillow.flip 0 true = .ok (pillowFlipped, true) := rfl

theorem pillowFlipped_valid : pillowFlipped.Valid := by
  obtain ⟨m', r, h, hv, _⟩ := C01_flip_valid pillow pillow_valid 0 (by decide +kernel) true
  rw [pillowFlipped_reached] at h
  injection h with h; injection h with h1 h2; rw [h1]; exact hv

/-- **C04 fails** for an edge starting at a vertex of degree one: on the valid mesh `pillowFlipped` the call
returns normally with a mesh in which two different halfedges have the same successor. -/
theorem C04_insertVertexAlongEdge_fails :
    ∃ (m : Mesh) (e : ℕ) (m' : Mesh), m.Valid ∧ m.heLive (2 * e) ∧
      m.insertVertexAlongEdge e = .ok (m', 2 * e) ∧
      m'.heLive 6 ∧ m'.heLive 7 ∧ m'.heNext 6 = m'.heNext 7 ∧ ¬ m'.Valid := by
  refine ⟨pillowFlipped, 1, _, pillowFlipped_valid, by decide +kernel, rfl, by decide +kernel, by decide +kernel,
    by decide +kernel, ?_⟩
  intro hv
  exact absurd (hv.next_inj (i := 6) (j := 7) (by decide +kernel) (by decide +kernel) (by decide +kernel))
    (by decide)

end GC
