import Verif.MeshInsertFace
import Verif.Props.Connect
import Verif.Props.Triangulate
import Mathlib.Data.Finset.Card
import Mathlib.Data.Finset.Image

/-! # Property C06: insertVertex(face) -/

namespace GC
open Mesh

/-- **C06.** Let `f` be an interior face of a valid mesh and `L` the set of its halfedges. `insertVertex f`
runs out of memory or returns a valid mesh with one more vertex (`m.nVFill`, the returned one), `d` more
edges and `d - 1` more faces, `d = |L|`. The new vertex has exactly `d` outgoing halfedges. Each `i ∈ L` keeps
its tail and is now a side of a triangle whose third corner is the new vertex; different sides are in
different triangles; every new halfedge is in one of these triangles. Halfedges of other faces are
unchanged. -/
theorem C06_insertVertex (m : Mesh) (hv : m.Valid) (f : ℕ) (hf : m.fLive f) (hint : f < m.nFFill)
    (L : Finset ℕ) (hL : ∀ i, i ∈ L ↔ m.heLive i ∧ m.heFace i = f) :
    (m.insertVertex f = .error .oom ∧ m.nearLimit L.card) ∨
    ∃ m', m.insertVertex f = .ok (m', m.nVFill) ∧ m'.Valid ∧
      m'.nV = m.nV + 1 ∧ m'.nE = m.nE + L.card ∧ m'.nF = m.nF + (L.card - 1) ∧ m'.nBL = m.nBL ∧
      ¬ m.vLive m.nVFill ∧ m'.vLive m.nVFill ∧
      (∃ S : Finset ℕ, S.card = L.card ∧ ∀ i, i ∈ S ↔ m'.heLive i ∧ m'.heVertex i = m.nVFill) ∧
      (∀ i, m.heLive i → m'.heLive i ∧ m'.heVertex i = m.heVertex i) ∧
      (∀ i ∈ L, m'.tip i = m.tip i ∧ m'.heVertex (m'.heNext (m'.heNext i)) = m.nVFill ∧
        m'.heNext (m'.heNext (m'.heNext i)) = i ∧ ¬ m'.ext i) ∧
      (∀ i ∈ L, ∀ j ∈ L, m'.heFace i = m'.heFace j → i = j) ∧
      (∀ i, m'.heLive i → ¬ m.heLive i → ∃ j ∈ L, m'.heFace i = m'.heFace j) ∧
      (∀ i, m.heLive i → i ∉ L → m'.heNext i = m.heNext i ∧ (¬ m.ext i → m'.heFace i = m.heFace i)) ∧
      (∀ i, m.heLive i → (m'.ext i ↔ m.ext i)) := by
  classical
  rcases iv_spec hv hf hint with ⟨h, d, hd, lim⟩ | ⟨m', m0, d, h, G, S⟩
  · exact Or.inl ⟨h, by rw [hd L hL]; exact lim⟩
  right
  have hv0 := G.valid hv
  have hval := iv_valid hv0 S
  have hlive := S.live hv0
  obtain ⟨g1, g2, g3, g4, g5, g6, g7, g8⟩ := G.facts
  generalize hb : (fun j => m.heNext^[j] (m.fHalfedge f)) = b at S
  have hd := S.hd
  have fsame : ∀ i, m.heLive i → (m.heFace i = f ↔ m0.heFace i = f) := by
    intro i hi
    by_cases x : m.ext i
    · have y := G.ext.2 x
      unfold ext at x y
      rw [g7.2.1] at y
      constructor <;> intro <;> omega
    · rw [G.face_int x]
  have hL' : ∀ i, i ∈ L ↔ ∃ j < d, i = b j := by
    intro i
    rw [hL, ← S.bmem, G.heLive]
    constructor
    · rintro ⟨h1, h2⟩; exact ⟨h1, (fsame i h1).1 h2⟩
    · rintro ⟨h1, h2⟩; exact ⟨h1, (fsame i h1).2 h2⟩
  have hcard : L.card = d := by
    have : L = (Finset.range d).image b := by
      ext i; rw [hL', Finset.mem_image]
      constructor
      · rintro ⟨j, hj, e⟩; exact ⟨j, by simpa using hj, e.symm⟩
      · rintro ⟨j, hj, e⟩; exact ⟨j, by simpa using hj, e.symm⟩
    rw [this, Finset.card_image_of_injOn, Finset.card_range]
    intro i hi j hj e
    exact S.binj i j (by simpa using hi) (by simpa using hj) e
  rw [hcard]
  have vfill : m0.nVFill = m.nVFill := g5.2.1
  have hefill : m0.nHeFill = m.nHeFill := g4.2.1
  have oldlive : ∀ {i}, m.heLive i → m'.heLive i := fun hi => (hlive _).2 (Or.inl ((G.heLive _).2 hi))
  have oldv : ∀ {i}, m.heLive i → m'.heVertex i = m.heVertex i := by
    intro i hi; rw [S.v_o i ((G.heLive _).2 hi).1, g2]
  have b1 : ∀ k < d, m.heLive (b (k + 1)) := by
    intro k hk; obtain ⟨j, hj, e⟩ := S.b_succ_mem hk; rw [e]; exact (G.heLive _).1 (S.b_live hj).1
  have fanlt : ∀ k < d, m0.fanFace f k < m'.nFFill := by
    intro k hk; rw [S.c_fFill]; have := S.hint; unfold fanFace; split_ifs <;> omega
  have extold : ∀ i, m.heLive i → (m'.ext i ↔ m.ext i) := by
    intro i hi
    by_cases hi' : i ∈ L
    · obtain ⟨j, hj, rfl⟩ := (hL' i).1 hi'
      have := ((hL _).1 hi').2
      unfold ext; rw [S.f_b j hj, this]
      have := fanlt j hj; omega
    · have hne : ∀ k < d, i ≠ b k := fun k hk e => hi' ((hL' i).2 ⟨k, hk, e⟩)
      have e := S.f_o i ((G.heLive i).2 hi) hne
      rw [← G.ext]
      unfold ext; rw [e]
      have hsp := S.c_space
      have hcf := S.c_fFill
      constructor
      · intro; omega
      · intro x; have := hv0.face_ext_region ((G.heLive i).2 hi) x; omega
  have vnew : ∀ i, m'.heLive i → (m'.heVertex i = m.nVFill ↔ ∃ k < d, i = m.nHeFill + 2 * k + 1) := by
    intro i hi
    rcases (hlive i).1 hi with l | ⟨k, hk, rfl | rfl⟩
    · have l' := (G.heLive i).1 l
      rw [oldv l']
      refine iff_of_false (hv.vertex_live i l').1.ne ?_
      rintro ⟨k, hk, rfl⟩; have := l'.1; omega
    · rw [S.v_l k hk, g2]
      refine iff_of_false (hv.vertex_live _ (b1 k hk)).1.ne ?_
      rintro ⟨k', hk', e⟩; omega
    · rw [S.v_q k hk, vfill]
      exact iff_of_true rfl ⟨k, hk, by rw [hefill]⟩
  have liveq : ∀ k < d, m'.heLive (m.nHeFill + 2 * k + 1) := by
    intro k hk; rw [← hefill]; exact (hlive _).2 (Or.inr ⟨k, hk, Or.inr rfl⟩)
  refine ⟨m', h, hval, by rw [S.c_v, g5.1], by rw [S.c_e, g6.1], by rw [S.c_f, g7.1], by rw [S.c_bl, g7.2.2.1],
    fun h => absurd h.1 (lt_irrefl _), ?_, ?_, fun i hi => ⟨oldlive hi, oldv hi⟩, ?_, ?_, ?_, ?_, extold⟩
  · have := hval.vertex_live _ (liveq 0 hd)
    rwa [(vnew _ (liveq 0 hd)).2 ⟨0, hd, rfl⟩] at this
  · refine ⟨(Finset.range d).image (fun k => m.nHeFill + 2 * k + 1), ?_, ?_⟩
    · rw [Finset.card_image_of_injective, Finset.card_range]
      intro i j e; simp only at e; omega
    · intro i
      rw [Finset.mem_image]
      constructor
      · rintro ⟨k, hk, rfl⟩
        have hk' : k < d := by simpa using hk
        exact ⟨liveq k hk', (vnew _ (liveq k hk')).2 ⟨k, hk', rfl⟩⟩
      · rintro ⟨l, e⟩
        obtain ⟨k, hk, e⟩ := (vnew i l).1 e
        exact ⟨k, by simpa using hk, e.symm⟩
  · intro i hi
    obtain ⟨k, hk, rfl⟩ := (hL' i).1 hi
    unfold tip
    have lb := (hL _).1 hi
    have e1 := S.next_b k hk
    rw [e1, S.v_l k hk, S.next_l k hk, S.next_q _ (pr_lt hd), S.v_q _ (pr_lt hd), S.b_pr hk, g2, S.bsucc, g1, vfill]
    refine ⟨rfl, rfl, rfl, ?_⟩
    rw [extold _ lb.1]; unfold ext; rw [lb.2]; omega
  · intro i hi j hj e
    obtain ⟨k, hk, rfl⟩ := (hL' i).1 hi
    obtain ⟨k', hk', rfl⟩ := (hL' j).1 hj
    rw [S.f_b k hk, S.f_b k' hk'] at e
    rw [fanFace_inj S.hint e]
  · intro i hi hni
    rcases (hlive i).1 hi with l | ⟨k, hk, rfl | rfl⟩
    · exact absurd ((G.heLive i).1 l) hni
    · exact ⟨b k, (hL' _).2 ⟨k, hk, rfl⟩, by rw [S.f_l k hk, S.f_b k hk]⟩
    · obtain ⟨j, hj, rfl⟩ := pr_surj hk
      exact ⟨b j, (hL' _).2 ⟨j, hj, rfl⟩, by rw [S.f_q j hj, S.f_b j hj]⟩
  · intro i hi hi'
    have hne : ∀ k < d, i ≠ b k := fun k hk e => hi' ((hL' i).2 ⟨k, hk, e⟩)
    refine ⟨by rw [S.next_o i ((G.heLive i).2 hi).1 hne, g1], fun x => ?_⟩
    rw [S.f_o i ((G.heLive i).2 hi) hne, G.face_int x]

/-- The hypotheses are met by the pentagon, `d = 5`; its face array (capacity 2) grows twice. -/
example : pentagon.Valid ∧ pentagon.fLive 0 ∧ 0 < pentagon.nFFill ∧
    (∀ i, i ∈ ({0, 2, 4, 6, 8} : Finset ℕ) ↔ pentagon.heLive i ∧ pentagon.heFace i = 0) ∧
    (∃ m', pentagon.insertVertex 0 = .ok (m', 5) ∧ m'.nE = 10 ∧ m'.nF = 5 ∧ m'.nFCap = 8) := by
  refine ⟨pentagon_valid, by decide +kernel, by decide +kernel, ?_, ⟨_, rfl, by decide +kernel⟩⟩
  intro i
  by_cases h : i < 10
  · interval_cases i <;> decide +kernel
  · refine iff_of_false ?_ (fun h' => h h'.1.1)
    simp; omega

end GC
