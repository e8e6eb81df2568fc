import Verif.Nav
import Verif.Props.History

/-! # Property C49: navigation loops, and C16: element ranges -/

namespace GC
open Mesh

theorem iterate_mod {α : Type} {f : α → α} {x : α} {k : ℕ} (hhit : f^[k+1] x = x) {j : ℕ} (hj : j ≤ k) :
    f (f^[j] x) = f^[(j+1) % (k+1)] x := by
  rw [← Function.iterate_succ_apply' f]
  by_cases h : j = k
  · subst h; rw [Nat.mod_self, hhit]; rfl
  · rw [Nat.mod_eq_of_lt (by omega)]

theorem cyc_list {f : ℕ → ℕ} {x k : ℕ} (hhit : f^[k+1] x = x) {l : List ℕ}
    (hl : l = (List.range (k+1)).map (fun j => f^[j] x)) :
    l[0]? = some x ∧ ∀ j i, l[j]? = some i → l[(j+1) % l.length]? = some (f i) := by
  have hlen : l.length = k + 1 := by rw [hl]; simp
  refine ⟨by rw [hl]; simp, fun j i h => ?_⟩
  rw [hlen]
  have hj : j < k + 1 := by
    by_contra hc
    rw [List.getElem?_eq_none (by omega)] at h; simp at h
  have hm : (j+1) % (k+1) < k + 1 := Nat.mod_lt _ (by omega)
  rw [hl] at h ⊢
  simp only [List.getElem?_map, List.getElem?_range hj, List.getElem?_range hm, Option.map_some, Option.some.injEq] at h ⊢
  rw [← h, iterate_mod hhit (by omega)]

/-- **C49, faces.** On a valid mesh the loop over the halfedges of a face or boundary loop ends; it yields
every halfedge of the face exactly once, beginning with `f.halfedge()` and following `next()` cyclically;
`degree()` is their number. -/
theorem C49_face_halfedges (m : Mesh) (hv : m.Valid) (f : ℕ) (hf : m.fLive f) :
    ∃ l, m.navFaceHalfedges f = .ok l ∧ l.Nodup ∧ (∀ i, i ∈ l ↔ m.heLive i ∧ m.heFace i = f) ∧
      l[0]? = some (m.fHalfedge f) ∧ (∀ j i, l[j]? = some i → l[(j+1) % l.length]? = some (m.heNext i)) ∧
      m.fDegree f = .ok l.length ∧ m.navFaceVertices f = .ok (l.map m.heVertex) ∧
      m.navFaceFaces f = .ok ((l.filter (fun i => m.heFace (twin i) < m.nFFill)).map (fun i => m.heFace (twin i))) := by
  obtain ⟨hl, hff⟩ := hv.f_he f hf
  obtain ⟨k, hk, hhit, hmin, hok⟩ := orbitList_ok (hv.back_next hl)
    (fun z hz => (hv.live_of_orb_next hl hz).1)
  obtain ⟨l, e, nd, hm, k', hl', hh'⟩ := hv.faceHalfedges_ok hf
  have el : l = (List.range (k+1)).map (fun j => m.heNext^[j] (m.fHalfedge f)) := by
    unfold faceHalfedges at e; rw [hok] at e; injection e with e; exact e.symm
  have nav : navList m.heNext (fun _ => true) (m.fHalfedge f) (m.nHeFill + 2) = .ok l := by
    rw [navList_eq hhit hmin (by omega), el]; simp
  obtain ⟨c1, c2⟩ := cyc_list hhit el
  refine ⟨l, nav, nd, hm, c1, c2, ?_, ?_, ?_⟩
  · unfold fDegree navFaceHalfedges; rw [nav]; rfl
  · unfold navFaceVertices; rw [nav]; rfl
  · -- the pair navigator
    unfold navFaceFaces
    generalize m.fHalfedge f = h at *
    have itE : ∀ j, m.ffAdvance^[2*j] (h, h) = (m.heNext^[j] h, m.heNext^[j] h) := by
      intro j
      induction j with
      | zero => rfl
      | succ j ih =>
        rw [show 2 * (j+1) = 2*j + 1 + 1 by omega, Function.iterate_succ_apply', Function.iterate_succ_apply', ih,
          Function.iterate_succ_apply']
        unfold ffAdvance
        rw [if_neg (twin_ne _).symm]
        simp
    have itO : ∀ j, m.ffAdvance^[2*j+1] (h, h) = (m.heNext^[j] h, twin (m.heNext^[j] h)) := by
      intro j
      rw [Function.iterate_succ_apply', itE]
      unfold ffAdvance
      rw [if_neg (twin_ne _).symm]
    have hhit2 : m.ffAdvance^[(2*k+1)+1] (h, h) = (h, h) := by
      rw [show 2*k+1+1 = 2*(k+1) by omega, itE, hhit]
    have hmin2 : ∀ j < 2*k+1, m.ffAdvance^[j+1] (h, h) ≠ (h, h) := by
      intro j hj heq
      rcases Nat.even_or_odd' (j+1) with ⟨a, ha | ha⟩
      · rw [ha, itE] at heq
        obtain ⟨b, rfl⟩ : ∃ b, a = b + 1 := ⟨a - 1, by omega⟩
        exact hmin b (by omega) (by injection heq)
      · rw [ha, itO] at heq
        injection heq with h1 h2
        rw [h1] at h2; exact twin_ne _ h2
    rw [navList_eq hhit2 hmin2 (by omega), el]
    show Except.ok _ = _
    congr 1
    rw [show 2*k+1+1 = 2*(k+1) by omega]
    generalize k + 1 = n
    induction n with
    | zero => rfl
    | succ n ih =>
      rw [show 2 * (n+1) = 2*n+1+1 by omega, List.range_succ, List.range_succ, List.range_succ]
      simp only [List.map_append, List.filter_append, List.append_assoc]
      rw [ih]
      congr 1
      simp only [List.map_cons, List.map_nil, itE, itO]
      have h2 : ¬ (m.heNext^[n] h = twin (m.heNext^[n] h)) := (twin_ne _).symm
      by_cases hx : m.heFace (twin (m.heNext^[n] h)) < m.nFFill
      · have : m.heIsInterior (twin (m.heNext^[n] h)) := by unfold heIsInterior faceIsBL; omega
        simp [hx, this, h2]
      · have : ¬ m.heIsInterior (twin (m.heNext^[n] h)) := by unfold heIsInterior faceIsBL; omega
        simp [hx, this]

/-- **C49, outgoing halfedges and what is derived from them.** `degree()` counts the edge ends at `v`. -/
theorem C49_vertex_outgoing (m : Mesh) (hv : m.Valid) (v : ℕ) (hvl : m.vLive v) :
    ∃ l, m.navOutgoing v = .ok l ∧ l.Nodup ∧ (∀ i, i ∈ l ↔ m.heLive i ∧ m.heVertex i = v) ∧
      l[0]? = some (m.vHalfedge v) ∧ (∀ j i, l[j]? = some i → l[(j+1) % l.length]? = some (m.heNext (twin i))) ∧
      m.vDegree v = .ok l.length ∧
      m.navVertexEdges v = .ok (l.map (fun i => i / 2)) ∧
      m.navVertexVertices v = .ok (l.map (fun i => m.heVertex (twin i))) ∧
      m.navVertexFaces v = .ok ((l.filter (fun i => m.heFace i < m.nFFill)).map m.heFace) := by
  obtain ⟨hl, hff⟩ := hv.v_he v hvl
  obtain ⟨k, hk, hhit, hmin, hok⟩ := orbitList_ok (hv.back_vNext hl)
    (fun z hz => (hv.live_of_orb_vNext hl hz).1)
  obtain ⟨l, e, nd, hm, k', hl', hh'⟩ := hv.outgoingHalfedges_ok hvl
  have el : l = (List.range (k+1)).map (fun j => m.vNext^[j] (m.vHalfedge v)) := by
    unfold outgoingHalfedges at e; rw [hok] at e; injection e with e; exact e.symm
  have nav : navList m.vNext (fun _ => true) (m.vHalfedge v) (m.nHeFill + 2) = .ok l := by
    rw [navList_eq hhit hmin (by omega), el]; simp
  obtain ⟨c1, c2⟩ := cyc_list hhit el
  refine ⟨l, nav, nd, hm, c1, c2, ?_, ?_, ?_, ?_⟩
  · unfold vDegree navVertexEdges; rw [nav]
    show Except.ok _ = _
    simp
  · unfold navVertexEdges; rw [nav]; rfl
  · unfold navVertexVertices; rw [nav]
    show Except.ok _ = _
    congr 1
    apply List.map_congr_left
    intro i hi
    unfold tip
    exact hv.vertex_next ((hm i).1 hi).1
  · unfold navVertexFaces
    rw [navList_eq hhit hmin (by omega), ← el]
    show Except.ok _ = _
    congr 2
    apply List.filter_congr
    intro i _
    have : m.heIsInterior i ↔ m.heFace i < m.nFFill := by unfold heIsInterior faceIsBL; omega
    simp [this]

/-- **C49, incoming halfedges.** -/
theorem C49_vertex_incoming (m : Mesh) (hv : m.Valid) (v : ℕ) (hvl : m.vLive v) :
    ∃ l, m.navIncoming v = .ok l ∧ l.Nodup ∧ (∀ i, i ∈ l ↔ m.heLive i ∧ m.heVertex (m.heNext i) = v) ∧
      (∀ i, l[0]? = some i → m.heNext i = m.vHalfedge v) ∧
      (∀ j i, l[j]? = some i → l[(j+1) % l.length]? = some (twin (m.heNext i))) := by
  obtain ⟨hl, hff⟩ := hv.v_he v hvl
  obtain ⟨p, hp, lp, np⟩ := hv.prevOrbitFace_ok hl
  obtain ⟨k, hk, hhit, hmin, -⟩ := orbitList_ok (hv.back_vNext hl)
    (fun z hz => (hv.live_of_orb_vNext hl hz).1)
  -- inNext is conjugate to vNext by next
  have conj : ∀ j, m.heNext (m.inNext^[j] p) = m.vNext^[j] (m.vHalfedge v) := by
    intro j
    induction j with
    | zero => exact np
    | succ j ih =>
      rw [Function.iterate_succ_apply', Function.iterate_succ_apply', ← ih]; rfl
  have live : ∀ j, m.heLive (m.inNext^[j] p) := by
    intro j
    induction j with
    | zero => exact lp
    | succ j ih => rw [Function.iterate_succ_apply']; exact hv.twin_live _ (hv.next_live _ ih)
  have hhit' : m.inNext^[k+1] p = p :=
    hv.next_inj (live _) lp (by rw [conj, hhit, np])
  have hmin' : ∀ j < k, m.inNext^[j+1] p ≠ p := fun j hj h =>
    hmin j hj (by rw [← conj, h, np])
  have nav : m.navIncoming v = .ok ((List.range (k+1)).map (fun j => m.inNext^[j] p)) := by
    unfold navIncoming; rw [hp]; simp only; rw [navList_eq hhit' hmin' (by omega)]; simp
  obtain ⟨c1, c2⟩ := cyc_list hhit' rfl
  refine ⟨_, nav, orbit_range_nodup hhit' hmin', fun i => ?_, fun i hi => ?_, c2⟩
  · rw [orbit_range_mem hhit']
    constructor
    · rintro ⟨j, rfl⟩
      refine ⟨live j, ?_⟩
      rw [conj, ← (hv.vertex_iff _ _ hl (hv.live_of_orb_vNext hl ⟨j, rfl⟩)).2 ⟨j, rfl⟩, hff]
    · rintro ⟨li, hi⟩
      obtain ⟨j, hj⟩ := (hv.vertex_iff _ _ hl (hv.next_live _ li)).1 (by rw [hff, hi])
      exact ⟨j, hv.next_inj (live j) li (by rw [conj, hj])⟩
  · rw [c1] at hi; injection hi with hi; rw [← hi, np]

/-- **C49, edges.** The loop over the interior halfedges of an edge yields the first halfedge and, unless
the edge is on the boundary, its twin. -/
theorem C49_edge_interior (m : Mesh) (hv : m.Valid) (e : ℕ) (hl : m.heLive (2 * e)) :
    m.navEdgeInterior e = .ok (if m.nFFill ≤ m.heFace (2 * e + 1) then [2 * e] else [2 * e, 2 * e + 1]) := by
  unfold navEdgeInterior
  have h0 : m.heIsInterior (2 * e) := by
    have := hv.edge_int e hl; unfold ext eHalfedge at this; unfold heIsInterior faceIsBL; omega
  rw [navList_eq (k := 1) (by show twin (twin _) = _; simp)
    (fun j hj => by obtain rfl : j = 0 := by omega
                    exact twin_ne _) (by have := hl.1; omega)]
  congr 1
  have hr : (List.range 2).map (fun j => twin^[j] (eHalfedge e)) = [2 * e, 2 * e + 1] := by
    simp [List.range_succ, eHalfedge, twin_two_mul]
  rw [hr]
  by_cases hx : m.nFFill ≤ m.heFace (2 * e + 1)
  · have : ¬ m.heIsInterior (2 * e + 1) := by unfold heIsInterior faceIsBL; omega
    simp [hx, h0, this]
  · have : m.heIsInterior (2 * e + 1) := by unfold heIsInterior faceIsBL; omega
    simp [hx, h0, this]

/-- **C49, predecessors.** `prevOrbitFace` and `prevOrbitVertex` both end and return the halfedge whose
`next()` is the given one. -/
theorem C49_prev (m : Mesh) (hv : m.Valid) (i : ℕ) (hi : m.heLive i) :
    ∃ p, m.prevOrbitFace i = .ok p ∧ m.prevOrbitVertex i = .ok p ∧ m.heLive p ∧ m.heNext p = i := by
  obtain ⟨p, h1, h2, h3⟩ := hv.prevOrbitFace_ok hi
  obtain ⟨q, g1, g2, g3⟩ := hv.prevOrbitVertex_ok hi
  obtain rfl := hv.next_inj h2 g2 (by rw [h3, g3])
  exact ⟨p, h1, g1, h2, h3⟩

example : tetra.Valid ∧ tetra.fLive 0 ∧ tetra.vLive 0 ∧ tetra.heLive (2 * 0) := ⟨tetra_valid, by decide +kernel⟩

/-! ## C16 -/

/-- Specification of a range: a strictly increasing list of exactly the elements that exist. -/
def IsRange (l : List ℕ) (exist : ℕ → Prop) : Prop := l.Pairwise (· < ·) ∧ ∀ i, i ∈ l ↔ exist i

theorem rangeList_isRange (ok : ℕ → Bool) (n : ℕ) : ∃ l, rangeList ok n = .ok l ∧ IsRange l (fun i => i < n ∧ ok i = true) ∧
    l.length = Nat.count (fun i => ok i = true) n := by
  refine ⟨_, rangeList_eq ok n, ⟨List.Pairwise.filter _ List.pairwise_lt_range, fun i => by simp⟩, ?_⟩
  rw [Nat.count_eq_card_filter_range, ← List.toFinset_card_of_nodup (List.Nodup.filter _ List.nodup_range)]
  congr 1; ext i; simp

/-- **C16.** On every valid mesh each range loop ends and yields, in increasing index order and each once,
exactly the existing elements, and the counters equal the numbers of yielded elements. -/
theorem C16_ranges (m : Mesh) (hv : m.Valid) :
    (∃ l, m.rangeVertices = .ok l ∧ IsRange l m.vLive ∧ l.length = m.nV) ∧
    (∃ l, m.rangeHalfedges = .ok l ∧ IsRange l m.heLive ∧ l.length = m.nHe) ∧
    (∃ l, m.rangeInteriorHalfedges = .ok l ∧ IsRange l (fun i => m.heLive i ∧ ¬ m.ext i) ∧ l.length = m.nInt) ∧
    (∃ l, m.rangeExteriorHalfedges = .ok l ∧ IsRange l (fun i => m.heLive i ∧ m.ext i) ∧ l.length + m.nInt = m.nHe) ∧
    (∃ l, m.rangeEdges = .ok l ∧ IsRange l (fun e => m.heLive (2 * e)) ∧ l.length = m.nE) ∧
    (∃ l, m.rangeFaces = .ok l ∧ IsRange l (fun f => m.fLive f ∧ f < m.nFFill) ∧ l.length = m.nF) ∧
    (∃ l, m.rangeBoundaryLoops = .ok l ∧
      IsRange l (fun b => b < m.nFCap ∧ m.fLive (m.nFCap - 1 - b) ∧ m.nFFill ≤ m.nFCap - 1 - b) ∧ l.length = m.nBL) := by
  have hint : ∀ i, m.heIsInterior i ↔ ¬ m.ext i := by intro i; unfold heIsInterior faceIsBL ext; rfl
  have lenInt : m.nInt = Nat.count (fun i => m.heNext i ≠ INV ∧ m.heIsInterior i) m.nHeFill := by
    rw [hv.cnt_int]; congr 1; funext i
    have : m.heIsInterior i ↔ m.heFace i < m.nFFill := by unfold heIsInterior faceIsBL; omega
    simp [this]
  refine ⟨?_, ?_, ?_, ?_, ?_, ?_, ?_⟩
  · obtain ⟨l, h1, h2, h3⟩ := rangeList_isRange (fun v => decide (m.vHalfedge v ≠ INV)) m.nVFill
    refine ⟨l, h1, ⟨h2.1, fun i => by rw [h2.2]; simp [vLive]⟩, ?_⟩
    rw [h3, hv.cnt_v]; simp
  · obtain ⟨l, h1, h2, h3⟩ := rangeList_isRange (fun v => decide (m.heNext v ≠ INV)) m.nHeFill
    refine ⟨l, h1, ⟨h2.1, fun i => by rw [h2.2]; simp [heLive]⟩, ?_⟩
    rw [h3, hv.cnt_he]; simp
  · obtain ⟨l, h1, h2, h3⟩ := rangeList_isRange (fun i => decide (m.heNext i ≠ INV ∧ m.heIsInterior i)) m.nHeFill
    refine ⟨l, h1, ⟨h2.1, fun i => by rw [h2.2]; simp [heLive, hint, and_assoc]⟩, ?_⟩
    rw [h3, lenInt]; simp
  · obtain ⟨l, h1, h2, h3⟩ := rangeList_isRange (fun i => decide (m.heNext i ≠ INV ∧ ¬ m.heIsInterior i)) m.nHeFill
    refine ⟨l, h1, ⟨h2.1, fun i => by rw [h2.2]; simp [heLive, hint, and_assoc]⟩, ?_⟩
    rw [h3, lenInt, hv.cnt_he]
    simp only [decide_eq_true_eq]
    simp only [Nat.count_eq_card_filter_range]
    rw [← Finset.card_union_of_disjoint]
    · congr 1; ext i
      simp only [Finset.mem_union, Finset.mem_filter, Finset.mem_range]
      tauto
    · rw [Finset.disjoint_left]; intro i hi hj
      simp only [Finset.mem_filter] at hi hj; tauto
  · obtain ⟨l, h1, h2, h3⟩ := rangeList_isRange (fun e => decide (m.heNext (eHalfedge e) ≠ INV)) m.nEFill
    refine ⟨l, h1, ⟨h2.1, fun i => ?_⟩, ?_⟩
    · rw [h2.2]
      have := hv.he_fill
      simp only [heLive, eHalfedge, decide_eq_true_eq]
      constructor
      · rintro ⟨a, b⟩; exact ⟨by omega, of_decide_eq_true b⟩
      · rintro ⟨a, b⟩; exact ⟨by omega, decide_eq_true b⟩
    · rw [h3, hv.cnt_e]; simp
  · obtain ⟨l, h1, h2, h3⟩ := rangeList_isRange (fun v => decide (m.fHalfedge v ≠ INV)) m.nFFill
    refine ⟨l, h1, ⟨h2.1, fun i => ?_⟩, ?_⟩
    · rw [h2.2]; simp only [fLive, decide_eq_true_eq]; tauto
    · rw [h3, hv.cnt_f]; simp
  · obtain ⟨l, h1, h2, h3⟩ := rangeList_isRange (fun b => decide (m.fHalfedge (m.nFCap - 1 - b) ≠ INV)) m.nBLFill
    have hc := hv.f_cap.1
    refine ⟨l, h1, ⟨h2.1, fun i => ?_⟩, ?_⟩
    · rw [h2.2]; simp only [fLive, decide_eq_true_eq]
      constructor
      · rintro ⟨a, b⟩; exact ⟨by omega, ⟨Or.inr (by omega), b⟩, by omega⟩
      · rintro ⟨a, ⟨b, c⟩, d⟩; exact ⟨by omega, c⟩
    · rw [h3, hv.cnt_bl, Nat.count_eq_card_filter_range, Finset.filter_true_of_mem, Finset.card_range]
      intro b hb
      rw [Finset.mem_range] at hb
      simpa using hv.bl_live (m.nFCap - 1 - b) (by omega) (by omega)

/-- **C16 through histories**: after any history of the modelled mutations (see `Hist`) the counters still
agree with the ranges. -/
theorem C16_histories (m m' : Mesh) (ops : List Op) (hv : m.Valid) (h : Hist Op.regular m ops m') :
    (∃ l, m'.rangeVertices = .ok l ∧ IsRange l m'.vLive ∧ l.length = m'.nV) ∧
    (∃ l, m'.rangeEdges = .ok l ∧ IsRange l (fun e => m'.heLive (2 * e)) ∧ l.length = m'.nE) ∧
    (∃ l, m'.rangeFaces = .ok l ∧ IsRange l (fun f => m'.fLive f ∧ f < m'.nFFill) ∧ l.length = m'.nF) := by
  obtain ⟨a, -, -, -, b, c, -⟩ := C16_ranges m' (C15_histories_partial m m' ops hv h).1
  exact ⟨a, b, c⟩

/-- A mesh with deleted slots: the tetrahedron after removing an edge. -/
example : ∃ m', Hist Op.regular tetra [.removeEdge 0] m' ∧ m'.Valid ∧ m'.rangeEdges = .ok [1, 2, 3, 4, 5] := by
  have h : Hist Op.regular tetra [.removeEdge 0] _ :=
    .call (by show tetra.heLive _; decide +kernel) trivial rfl (.nil _)
  exact ⟨_, h, (C15_histories_partial _ _ _ tetra_valid h).1, rfl⟩

end GC
