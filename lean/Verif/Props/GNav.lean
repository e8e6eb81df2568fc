import Verif.GNav
import Verif.Props.SeparateVerts
import Mathlib.Algebra.BigOperators.Group.Finset.Sigma
import Mathlib.Algebra.BigOperators.Group.Finset.Piecewise
import Mathlib.Data.List.Count

/-! # C77: iterating around the vertices of a general mesh -/

namespace GC.GMesh

/-- The orbit of a list of the vertex lists. -/
theorem ring_orbit {R : Ring} {A : ℕ → Option ℕ} {V : ℕ → Prop} (hR : Ring.Inv R A V) {h v N : ℕ} (hA : A h = some v) (hN : ∀ z, A z ≠ none → z < N) :
    ∃ k < N, R.nx^[k + 1] h = h ∧ (∀ j < k, R.nx^[j + 1] h ≠ h) ∧ R.iter h N = .ok ((List.range (k + 1)).map (fun j => R.nx^[j] h)) ∧
      ((List.range (k + 1)).map (fun j => R.nx^[j] h)).Nodup ∧ ∀ z, z ∈ (List.range (k + 1)).map (fun j => R.nx^[j] h) ↔ A z = some v := by
  obtain ⟨k, hk, hhit, hmin, hok⟩ := Mesh.orbitList_ok (hR.single _ _ v (hR.nx_in h v hA) hA)
    (fun z hz => hN z (by rw [hR.orb_in hA hz]; simp))
  refine ⟨k, hk, hhit, hmin, hok, Mesh.orbit_range_nodup hhit hmin, fun z => ?_⟩
  rw [Mesh.orbit_range_mem hhit]
  exact ⟨fun ho => hR.orb_in hA ho, fun hz => hR.single h z v hA hz⟩

theorem Valid.prevFace_ok {m : GMesh} (hv : m.Valid) {h : ℕ} (hl : m.heL h) : ∃ p, m.prevFace h = .ok p ∧ m.heL p ∧ m.heNext p = h := by
  obtain ⟨q, h1, h2, h3⟩ := walkPrev_ok hv.faces (fKey_some.2 ⟨hl, rfl⟩) (fun z hz => (fKey_ne.1 hz).1) (fKey_some.2 ⟨hl, rfl⟩)
  exact ⟨q, h1, (fKey_some.1 h2).1, h3⟩

/-- The states reached: first the outgoing halfedges, then the incoming ones. -/
theorem nbr_iter {m : GMesh} {h p k k' : ℕ} (hp : m.prevFace h = .ok p) (hn : m.heNext p = h)
    (o1 : m.rout.nx^[k + 1] h = h) (o2 : ∀ j < k, m.rout.nx^[j + 1] h ≠ h) (i1 : m.rin.nx^[k' + 1] p = p) (i2 : ∀ j < k', m.rin.nx^[j + 1] p ≠ p) :
    (∀ j ≤ k, m.nbrAdvance^[j] ⟨h, h, false⟩ = ⟨m.rout.nx^[j] h, h, false⟩) ∧
    (∀ j ≤ k', m.nbrAdvance^[k + 1 + j] ⟨h, h, false⟩ = ⟨m.rin.nx^[j] p, p, true⟩) ∧
    m.nbrAdvance^[k + 1 + k' + 1] ⟨h, h, false⟩ = ⟨h, h, false⟩ := by
  have a : ∀ j ≤ k, m.nbrAdvance^[j] ⟨h, h, false⟩ = ⟨m.rout.nx^[j] h, h, false⟩ := by
    intro j
    induction j with
    | zero => intro _; rfl
    | succ j ih =>
      intro hj
      rw [Function.iterate_succ_apply', ih (by omega)]
      have := o2 j (by omega)
      rw [Function.iterate_succ_apply'] at this
      unfold nbrAdvance
      simp only [Bool.not_false, if_true]
      rw [if_neg this, Function.iterate_succ_apply']
  have b : ∀ j ≤ k', m.nbrAdvance^[k + 1 + j] ⟨h, h, false⟩ = ⟨m.rin.nx^[j] p, p, true⟩ := by
    intro j
    induction j with
    | zero =>
      intro _
      rw [Nat.add_zero, Function.iterate_succ_apply', a k (le_refl _)]
      rw [Function.iterate_succ_apply'] at o1
      unfold nbrAdvance
      simp only [Bool.not_false, if_true]
      rw [if_pos o1, hp]
      rfl
    | succ j ih =>
      intro hj
      rw [← Nat.add_assoc, Function.iterate_succ_apply', ih (by omega)]
      have := i2 j (by omega)
      rw [Function.iterate_succ_apply'] at this
      unfold nbrAdvance
      simp only [Bool.not_true, Bool.false_eq_true, if_false]
      rw [if_neg this, Function.iterate_succ_apply']
  refine ⟨a, b, ?_⟩
  rw [Function.iterate_succ_apply', b k' (le_refl _)]
  rw [Function.iterate_succ_apply'] at i1
  unfold nbrAdvance
  simp only [Bool.not_true, Bool.false_eq_true, if_false]
  rw [if_pos i1, hn]

/-- **The loop over the neighbours.** -/
theorem Valid.nbrStates_ok {m : GMesh} (hv : m.Valid) {v : ℕ} (hvl : m.vL v) :
    ∃ lo li p, m.outgoing v = .ok lo ∧ lo.Nodup ∧ (∀ h, h ∈ lo ↔ m.heL h ∧ m.heVertex h = v) ∧
      m.incoming v = .ok li ∧ li.Nodup ∧ (∀ h, h ∈ li ↔ m.heL h ∧ m.tip h = v) ∧
      m.nbrStates v = .ok ((lo.filter m.canonical).map (fun h => ⟨h, m.vHalfedge v, false⟩) ++ (li.filter m.canonical).map (fun h => ⟨h, p, true⟩)) := by
  obtain ⟨hl, hh⟩ := hv.v_he v hvl
  obtain ⟨p, hp, lp, np⟩ := hv.prevFace_ok hl
  have so : ∀ h w, (if m.heL h then some (m.heVertex h) else none) = some w ↔ m.heL h ∧ m.heVertex h = w := by
    intro h w; split_ifs with hh <;> simp [hh]
  have si : ∀ h w, (if m.heL h then some (m.tip h) else none) = some w ↔ m.heL h ∧ m.tip h = w := by
    intro h w; split_ifs with hh <;> simp [hh]
  obtain ⟨k, hk, o1, o2, o3, o4, o5⟩ := ring_orbit hv.out_ring (N := m.nHeFill) ((so _ _).2 ⟨hl, hh⟩)
    (fun z hz => by by_contra c; exact hz (if_neg (fun q => c q.1)))
  obtain ⟨k', hk', i1, i2, i3, i4, i5⟩ := ring_orbit hv.in_ring (N := m.nHeFill) (h := p) (v := v) ((si _ _).2 ⟨lp, by unfold tip; rw [np, hh]⟩)
    (fun z hz => by by_contra c; exact hz (if_neg (fun q => c q.1)))
  obtain ⟨n1, n2, n3⟩ := nbr_iter hp np o1 o2 i1 i2
  refine ⟨_, _, p, o3, o4, fun h => (o5 h).trans (so _ _), ?_, i4, fun h => (i5 h).trans (si _ _), ?_⟩
  · unfold incoming
    have : walkPrev m.heNext m.heNext (m.vHalfedge v) m.nHeFill (m.vHalfedge v) = .ok p := hp
    rw [this]
    exact i3
  · unfold nbrStates
    rw [hp]
    simp only
    rw [navList_eq (k := k + 1 + k') n3 ?_ (by omega)]
    · congr 1
      rw [show k + 1 + k' + 1 = (k + 1) + (k' + 1) by omega, List.range_add, List.map_append, List.filter_append, List.map_map]
      congr 1
      · have : (List.range (k + 1)).map (fun j => m.nbrAdvance^[j] ⟨m.vHalfedge v, m.vHalfedge v, false⟩) =
            ((List.range (k + 1)).map (fun j => m.rout.nx^[j] (m.vHalfedge v))).map (fun h => (⟨h, m.vHalfedge v, false⟩ : NbrState)) := by
          rw [List.map_map]
          apply List.map_congr_left
          intro j hj
          exact n1 j (by have := List.mem_range.1 hj; omega)
        rw [this, List.filter_map]
        rfl
      · have : (List.range (k' + 1)).map ((fun j => m.nbrAdvance^[j] ⟨m.vHalfedge v, m.vHalfedge v, false⟩) ∘ fun x => k + 1 + x) =
            ((List.range (k' + 1)).map (fun j => m.rin.nx^[j] p)).map (fun h => (⟨h, p, true⟩ : NbrState)) := by
          rw [List.map_map]
          apply List.map_congr_left
          intro j hj
          exact n2 j (by have := List.mem_range.1 hj; omega)
        rw [this, List.filter_map]
        rfl
    · intro j hj q
      by_cases c : j + 1 ≤ k
      · rw [n1 (j + 1) c] at q
        exact o2 j (by omega) (congrArg NbrState.curr q)
      · obtain ⟨i, rfl⟩ : ∃ i, j = k + i := ⟨j - k, by omega⟩
        rw [show k + i + 1 = k + 1 + i by omega, n2 i (by omega)] at q
        exact absurd (congrArg NbrState.inc q) (by simp)

theorem Valid.canonical_iff {m : GMesh} (hv : m.Valid) {h : ℕ} (hl : m.heL h) : m.canonical h = true ↔ ∃ e, m.eL e ∧ m.eHalfedge e = h := by
  unfold canonical
  rw [beq_iff_eq]
  constructor
  · intro q
    exact ⟨m.heEdge h, hv.edge_live h hl, q.symm⟩
  · rintro ⟨e, el, rfl⟩
    rw [(hv.e_he e el).2]

/-- How often an edge is met among some halfedges. -/
theorem Valid.count_canonical {m : GMesh} (hv : m.Valid) {l : List ℕ} (nd : l.Nodup) (hl : ∀ h ∈ l, m.heL h) {e : ℕ} (he : m.eL e) :
    ((l.filter m.canonical).map m.heEdge).count e = if m.eHalfedge e ∈ l then 1 else 0 := by
  have key : ∀ h ∈ l.filter m.canonical, h = m.eHalfedge (m.heEdge h) := by
    intro h q
    have := (List.mem_filter.1 q).2
    unfold canonical at this
    simpa using this
  have nd' : ((l.filter m.canonical).map m.heEdge).Nodup := by
    apply List.Nodup.map_on _ (nd.filter _)
    intro x hx y hy q
    rw [key x hx, key y hy, q]
  rw [List.Nodup.count nd']
  congr 1
  apply propext
  rw [List.mem_map]
  constructor
  · rintro ⟨h, q, rfl⟩
    rw [← key h q]
    exact (List.mem_filter.1 q).1
  · intro q
    refine ⟨_, List.mem_filter.2 ⟨q, (hv.canonical_iff (hl _ q)).2 ⟨e, he, rfl⟩⟩, (hv.e_he e he).2⟩

/-- Edge `e` joins `v` and `w`. -/
def Joins (m : GMesh) (e v w : ℕ) : Prop := (m.firstVertex e = v ∧ m.secondVertex e = w) ∨ (m.firstVertex e = w ∧ m.secondVertex e = v)

/-- **C77.**  `adjacentEdges()` meets an edge once for each of its ends at `v`; `adjacentVertices()` gives their other ends. -/
theorem C77_neighbours {m : GMesh} (hv : m.Valid) {v : ℕ} (hvl : m.vL v) :
    ∃ E W, m.adjacentEdges v = .ok E ∧ m.adjacentVertices v = .ok W ∧ m.degree v = .ok E.length ∧ (∀ e ∈ E, m.eL e) ∧
      (∀ e, m.eL e → E.count e = (if m.firstVertex e = v then 1 else 0) + (if m.secondVertex e = v then 1 else 0)) ∧
      List.Forall₂ (fun e w => m.Joins e v w) E W := by
  obtain ⟨lo, li, p, -, a2, a3, -, b2, b3, c⟩ := hv.nbrStates_ok hvl
  have e1 : m.adjacentEdges v = .ok ((lo.filter m.canonical).map m.heEdge ++ (li.filter m.canonical).map m.heEdge) := by
    unfold adjacentEdges
    rw [c]
    simp only [Except.map, List.map_append, List.map_map]
    rfl
  have e2 : m.adjacentVertices v = .ok ((lo.filter m.canonical).map m.tip ++ (li.filter m.canonical).map m.heVertex) := by
    unfold adjacentVertices
    rw [c]
    simp only [Except.map, List.map_append, List.map_map]
    rfl
  refine ⟨_, _, e1, e2, by unfold degree; rw [e1]; rfl, ?_, ?_, ?_⟩
  · intro e he
    rcases List.mem_append.1 he with q | q
    · obtain ⟨h, q', rfl⟩ := List.mem_map.1 q
      exact hv.edge_live h ((a3 h).1 (List.mem_filter.1 q').1).1
    · obtain ⟨h, q', rfl⟩ := List.mem_map.1 q
      exact hv.edge_live h ((b3 h).1 (List.mem_filter.1 q').1).1
  · intro e he
    rw [List.count_append, hv.count_canonical a2 (fun h q => ((a3 h).1 q).1) he, hv.count_canonical b2 (fun h q => ((b3 h).1 q).1) he]
    have l := (hv.e_he e he).1
    congr 1
    · congr 1
      exact propext ((a3 _).trans ⟨fun q => q.2, fun q => ⟨l, q⟩⟩)
    · congr 1
      exact propext ((b3 _).trans ⟨fun q => q.2, fun q => ⟨l, q⟩⟩)
  · have can : ∀ h, m.canonical h = true → m.eHalfedge (m.heEdge h) = h := by
      intro h q
      unfold canonical at q
      exact (beq_iff_eq.1 q).symm
    apply List.rel_append
    · rw [List.forall₂_map_left_iff, List.forall₂_map_right_iff, List.forall₂_same]
      intro h q
      obtain ⟨q1, q2⟩ := List.mem_filter.1 q
      refine .inl ⟨?_, ?_⟩
      · unfold firstVertex; rw [can h q2]; exact ((a3 h).1 q1).2
      · unfold secondVertex; rw [can h q2]
    · rw [List.forall₂_map_left_iff, List.forall₂_map_right_iff, List.forall₂_same]
      intro h q
      obtain ⟨q1, q2⟩ := List.mem_filter.1 q
      refine .inr ⟨?_, ?_⟩
      · unfold firstVertex; rw [can h q2]
      · unfold secondVertex; rw [can h q2]; exact ((b3 h).1 q1).2

/-- The edges at `v`. -/
theorem mem_of_count {m : GMesh} {v : ℕ} {E : List ℕ}
    (h : ∀ e, m.eL e → E.count e = (if m.firstVertex e = v then 1 else 0) + (if m.secondVertex e = v then 1 else 0)) {e : ℕ} (he : m.eL e) :
    e ∈ E ↔ m.firstVertex e = v ∨ m.secondVertex e = v := by
  rw [← List.count_pos_iff, h e he]
  by_cases a : m.firstVertex e = v <;> by_cases b : m.secondVertex e = v <;> simp [a, b]

/-- **C77, adjacent vertices.** -/
theorem C77_adjacent {m : GMesh} (hv : m.Valid) {v : ℕ} (hvl : m.vL v) :
    ∃ W, m.adjacentVertices v = .ok W ∧ ∀ w, w ∈ W ↔ ∃ e, m.eL e ∧ m.Joins e v w := by
  obtain ⟨E, W, e1, e2, -, e4, e5, e6⟩ := C77_neighbours hv hvl
  refine ⟨W, e2, fun w => ⟨fun q => ?_, ?_⟩⟩
  · obtain ⟨i, hi, q⟩ := List.mem_iff_getElem.1 q
    rw [List.forall₂_iff_get] at e6
    have := e6.2 i (by rw [e6.1]; exact hi) hi
    simp only [List.get_eq_getElem] at this
    rw [q] at this
    exact ⟨_, e4 _ (List.getElem_mem _), this⟩
  · rintro ⟨e, el, j⟩
    have hm : e ∈ E := by
      rw [mem_of_count e5 el]
      rcases j with j | j
      · exact .inl j.1
      · exact .inr j.2
    rw [List.forall₂_iff_get] at e6
    by_cases self : m.firstVertex e = m.secondVertex e
    · obtain ⟨i, hi, q⟩ := List.mem_iff_getElem.1 hm
      have := e6.2 i hi (by rw [← e6.1]; exact hi)
      simp only [List.get_eq_getElem] at this
      rw [q] at this
      have : W[i]'(by rw [← e6.1]; exact hi) = w := by
        unfold Joins at this j
        omega
      rw [← this]
      exact List.getElem_mem _
    · obtain ⟨i, hi, q⟩ := List.mem_iff_getElem.1 hm
      have := e6.2 i hi (by rw [← e6.1]; exact hi)
      simp only [List.get_eq_getElem] at this
      rw [q] at this
      have : W[i]'(by rw [← e6.1]; exact hi) = w := by
        unfold Joins at this j
        omega
      rw [← this]
      exact List.getElem_mem _

/-- **C77, degrees.**  They sum up to twice the number of edges. -/
theorem C77_degrees {m : GMesh} (hv : m.Valid) (deg : ℕ → ℕ) (hd : ∀ v, m.vL v → m.degree v = .ok (deg v)) :
    ∑ v ∈ (Finset.range m.nVFill).filter (fun v => m.vHalfedge v ≠ INV), deg v = 2 * m.nE := by
  have key : ∀ v, m.vL v → deg v = ∑ e ∈ (Finset.range m.nEFill).filter (fun e => m.eHalfedge e ≠ INV),
      ((if m.firstVertex e = v then 1 else 0) + (if m.secondVertex e = v then 1 else 0)) := by
    intro v hvl
    obtain ⟨E, W, -, -, e3, e4, e5, -⟩ := C77_neighbours hv hvl
    rw [hd v hvl] at e3
    injection e3 with e3
    rw [e3, ← List.sum_toFinset_count_eq_length E, Finset.sum_congr rfl (fun e he => e5 e (e4 e (List.mem_toFinset.1 he)))]
    apply Finset.sum_subset
    · intro e he
      have := e4 e (List.mem_toFinset.1 he)
      exact Finset.mem_filter.2 ⟨Finset.mem_range.2 this.1, this.2⟩
    · intro e he hn
      have el : m.eL e := ⟨Finset.mem_range.1 (Finset.mem_filter.1 he).1, (Finset.mem_filter.1 he).2⟩
      rw [← e5 e el]
      exact List.count_eq_zero.2 (fun q => hn (List.mem_toFinset.2 q))
  rw [Finset.sum_congr rfl (fun v q => key v ⟨Finset.mem_range.1 (Finset.mem_filter.1 q).1, (Finset.mem_filter.1 q).2⟩), Finset.sum_comm]
  have : ∀ e ∈ (Finset.range m.nEFill).filter (fun e => m.eHalfedge e ≠ INV),
      ∑ v ∈ (Finset.range m.nVFill).filter (fun v => m.vHalfedge v ≠ INV),
        ((if m.firstVertex e = v then 1 else 0) + (if m.secondVertex e = v then 1 else 0)) = 2 := by
    intro e he
    have el : m.eL e := ⟨Finset.mem_range.1 (Finset.mem_filter.1 he).1, (Finset.mem_filter.1 he).2⟩
    have l := (hv.e_he e el).1
    have v1 : m.vL (m.firstVertex e) := hv.vertex_live _ l
    have v2 : m.vL (m.secondVertex e) := hv.vertex_live _ (hv.next_live _ l)
    rw [Finset.sum_add_distrib, Finset.sum_ite_eq, Finset.sum_ite_eq]
    rw [if_pos (Finset.mem_filter.2 ⟨Finset.mem_range.2 v1.1, v1.2⟩), if_pos (Finset.mem_filter.2 ⟨Finset.mem_range.2 v2.1, v2.2⟩)]
  rw [Finset.sum_congr rfl this, Finset.sum_const, hv.cnt_e, Nat.count_eq_card_filter_range]
  simp [Nat.mul_comm]

/-- **C77, boundary vertices** are the ends of boundary edges. -/
theorem C77_boundary {m : GMesh} (hv : m.Valid) {v : ℕ} (hvl : m.vL v) :
    ∃ b, m.vIsBoundary v = .ok b ∧ (b = true ↔ ∃ h, m.heL h ∧ m.heSibling h = h ∧ (m.heVertex h = v ∨ m.tip h = v)) := by
  obtain ⟨E, W, e1, -, -, e4, e5, -⟩ := C77_neighbours hv hvl
  refine ⟨_, by unfold vIsBoundary; rw [e1]; rfl, ?_⟩
  rw [List.any_eq_true]
  constructor
  · rintro ⟨e, he, hb⟩
    unfold isBoundary at hb
    exact ⟨m.eHalfedge e, (hv.e_he e (e4 e he)).1, by simpa using hb, (mem_of_count e5 (e4 e he)).1 he⟩
  · rintro ⟨h, l, q, r⟩
    have el := hv.edge_live h l
    obtain ⟨lg, eg⟩ := hv.e_he _ el
    have : m.eHalfedge (m.heEdge h) = h :=
      ((hv.edge_iff h _ l lg).1 eg.symm).mem (fun z => z = h) rfl (fun z hz => by rw [hz, q])
    refine ⟨m.heEdge h, (mem_of_count e5 el).2 ?_, ?_⟩
    · unfold firstVertex secondVertex
      rw [this]
      exact r
    · unfold isBoundary
      rw [this, q]
      simp

/-- **C77, `connectingEdge`** finds an edge between the two vertices if there is one. -/
theorem C77_connecting {m : GMesh} (hv : m.Valid) {a : ℕ} (ha : m.vL a) (b : ℕ) :
    ∃ r, m.connectingEdge a b = .ok r ∧ (∀ e, r = some e → m.eL e ∧ m.Joins e a b) ∧ (r = none → ∀ e, m.eL e → ¬ m.Joins e a b) := by
  obtain ⟨E, W, e1, -, -, e4, e5, -⟩ := C77_neighbours hv ha
  refine ⟨_, by unfold connectingEdge; rw [e1]; rfl, ?_, ?_⟩
  · intro e q
    have h1 := List.find?_some q
    have h2 := List.mem_of_find?_eq_some q
    refine ⟨e4 e h2, ?_⟩
    have h3 := (mem_of_count e5 (e4 e h2)).1 h2
    have h1 := beq_iff_eq.1 h1
    unfold otherVertex at h1
    unfold Joins
    unfold firstVertex secondVertex at *
    split_ifs at h1 with c
    · exact .inl ⟨c, h1⟩
    · exact .inr ⟨h1, h3.resolve_left c⟩
  · intro q e el j
    rw [List.find?_eq_none] at q
    have hm : e ∈ E := by
      rw [mem_of_count e5 el]
      rcases j with j | j
      · exact .inl j.1
      · exact .inr j.2
    apply q e hm
    rw [beq_iff_eq]
    unfold otherVertex
    unfold Joins firstVertex secondVertex at j
    split_ifs with c <;> omega

/-! ### `isManifoldAndOriented` -/

/-- From a halfedge that leaves `v` to the one after it around `v`, if the faces are oriented alike. -/
def around (m : GMesh) (h : ℕ) : ℕ := m.heNext (m.heSibling h)

theorem mao_spec (m : GMesh) (v d h0 : ℕ) : ∀ n k, (∀ j, 1 ≤ j → j ≤ k → m.heVertex (m.around^[j] h0) = v ∧ m.around^[j] h0 ≠ h0) → k ≤ d → d + 2 ≤ n + k →
    ∃ b, maoLoop m v d h0 n k (m.around^[k] h0) = .ok b ∧
      (b = true ↔ 0 < d ∧ m.around^[d] h0 = h0 ∧ (∀ j, 1 ≤ j → j < d → m.around^[j] h0 ≠ h0) ∧ ∀ j, 1 ≤ j → j ≤ d → m.heVertex (m.around^[j] h0) = v) := by
  intro n
  induction n with
  | zero => intro k _ a b; omega
  | succ n ih =>
    intro k hk kd hn
    unfold maoLoop
    simp only
    have e : m.heNext (m.heSibling (m.around^[k] h0)) = m.around^[k + 1] h0 := by rw [Function.iterate_succ_apply']; rfl
    rw [e]
    have atd : k = d → ¬ (0 < d ∧ m.around^[d] h0 = h0) := by
      rintro rfl ⟨a, b⟩
      exact (hk k a (le_refl _)).2 b
    by_cases c1 : m.heVertex (m.around^[k + 1] h0) ≠ v
    · rw [if_pos c1]
      refine ⟨false, rfl, ⟨fun q => (by cases q), fun ⟨a, b, c, f⟩ => ?_⟩⟩
      by_cases q : k = d
      · exact absurd ⟨a, b⟩ (atd q)
      · exact absurd (f (k + 1) (by omega) (by omega)) c1
    · rw [if_neg c1]
      have c1 : m.heVertex (m.around^[k + 1] h0) = v := by simpa using c1
      by_cases c2 : k + 1 > d
      · rw [if_pos c2]
        refine ⟨false, rfl, ⟨fun q => (by cases q), fun ⟨a, b, _⟩ => absurd ⟨a, b⟩ (atd (by omega))⟩⟩
      · rw [if_neg c2]
        by_cases c3 : m.around^[k + 1] h0 ≠ h0
        · rw [if_pos c3]
          refine ih (k + 1) (fun j a b => ?_) (by omega) (by omega)
          rcases Nat.lt_or_eq_of_le b with z | rfl
          · exact hk j a (by omega)
          · exact ⟨c1, c3⟩
        · rw [if_neg c3]
          have c3 : m.around^[k + 1] h0 = h0 := by simpa using c3
          refine ⟨_, rfl, ?_⟩
          rw [beq_iff_eq]
          constructor
          · rintro rfl
            refine ⟨by omega, c3, fun j a b => (hk j a (by omega)).2, fun j a b => ?_⟩
            rcases Nat.lt_or_eq_of_le b with z | rfl
            · exact (hk j a (by omega)).1
            · exact c1
          · rintro ⟨a, b, c, f⟩
            by_contra q
            exact c (k + 1) (by omega) (by omega) c3

/-- The halfedges that leave `v` form one closed fan of faces oriented alike. -/
def ClosedFan (m : GMesh) (v : ℕ) : Prop := ∀ h, m.heL h → m.heVertex h = v → m.heVertex (m.around h) = v ∧ Orb m.around (m.vHalfedge v) h

/-- Live halfedges of an edge with at most two. -/
theorem Valid.two_of_manifold {m : GMesh} (hv : m.Valid) {i j : ℕ} (hm : m.isManifold (m.heEdge i) = true) (li : m.heL i) (lj : m.heL j) (e : m.heEdge i = m.heEdge j) :
    m.heSibling (m.heSibling i) = i ∧ (j = i ∨ j = m.heSibling i) := by
  have o := (hv.edge_iff i j li lj).1 e
  have cl : m.heSibling (m.heSibling i) = i := by
    have el := hv.edge_live i li
    obtain ⟨lg, eg⟩ := hv.e_he _ el
    have og := (hv.edge_iff _ i lg li).1 eg
    unfold isManifold at hm
    simp only [Bool.or_eq_true, beq_iff_eq] at hm
    generalize m.eHalfedge (m.heEdge i) = g at *
    have m2 : m.heSibling (m.heSibling g) = g := by
      rcases hm with z | z
      · exact z
      · rw [z, z]
    exact og.mem (fun z => m.heSibling (m.heSibling z) = z) m2 (fun z q => by rw [q])
  exact ⟨cl, o.mem (fun z => z = i ∨ z = m.heSibling i) (.inl rfl) (by
    rintro z (rfl | rfl)
    · exact .inr rfl
    · exact .inl cl)⟩

/-- The ends of an edge are those of its halfedges. -/
theorem Valid.ends {m : GMesh} (hv : m.Valid) {h : ℕ} (hl : m.heL h) :
    (m.firstVertex (m.heEdge h) = m.heVertex h ∧ m.secondVertex (m.heEdge h) = m.tip h) ∨
    (m.firstVertex (m.heEdge h) = m.tip h ∧ m.secondVertex (m.heEdge h) = m.heVertex h) := by
  obtain ⟨lg, eg⟩ := hv.e_he _ (hv.edge_live h hl)
  have := hv.orient _ h lg hl eg
  unfold aligned at this
  unfold firstVertex secondVertex
  split_ifs at this
  · exact .inl this
  · exact .inr this

/-- **C77, `isManifoldAndOriented`**, for a vertex at manifold edges and without self-edges. -/
theorem C77_oriented_partial {m : GMesh} (hv : m.Valid) {v : ℕ} (hvl : m.vL v)
    (hm : ∀ e, m.eL e → m.firstVertex e = v ∨ m.secondVertex e = v → m.isManifold e = true)
    (hs : ∀ h, m.heL h → m.heVertex h = v → m.tip h ≠ v) :
    ∃ b, m.isManifoldAndOriented v = .ok b ∧ (b = true ↔ m.ClosedFan v) := by
  obtain ⟨E, W, e1, -, e3, e4, e5, -⟩ := C77_neighbours hv hvl
  obtain ⟨hl, hh⟩ := hv.v_he v hvl
  obtain ⟨b, r1, r2⟩ := mao_spec m v E.length (m.vHalfedge v) (E.length + 2) 0 (fun j a b => by omega) (by omega) (by omega)
  refine ⟨b, by unfold isManifoldAndOriented; rw [e3]; exact r1, r2.trans ?_⟩
  clear r1 r2 b
  -- edges at v
  have eAt : ∀ h, m.heL h → m.heVertex h = v ∨ m.tip h = v → m.heEdge h ∈ E := by
    intro h l q
    rw [mem_of_count e5 (hv.edge_live h l)]
    rcases hv.ends l with ⟨a, b⟩ | ⟨a, b⟩
    · rw [a, b]; exact q
    · rw [a, b]; exact q.symm
  have mAt : ∀ h, m.heL h → m.heVertex h = v ∨ m.tip h = v → m.isManifold (m.heEdge h) = true := by
    intro h l q
    exact hm _ (hv.edge_live h l) ((mem_of_count e5 (hv.edge_live h l)).1 (eAt h l q))
  have nd : E.Nodup := by
    rw [List.nodup_iff_count_le_one]
    intro e
    by_cases he : e ∈ E
    · rw [e5 e (e4 e he)]
      obtain ⟨l, -⟩ := hv.e_he e (e4 e he)
      have := hs _ l
      unfold firstVertex secondVertex
      split_ifs with a b <;> first | omega | exact absurd b (this a)
    · rw [List.count_eq_zero.2 he]; omega
  have live : ∀ h, m.heL h → m.heL (m.around h) := fun h l => hv.next_live _ (hv.sib_live _ l)
  have inj : ∀ x y, m.heL x → m.heL y → m.around x = m.around y → x = y := by
    intro x y lx ly q
    have := hv.next_inj (hv.sib_live _ lx) (hv.sib_live _ ly) q
    exact hv.edges.inj (eKey_ne.2 lx) (eKey_ne.2 ly) this
  have liveN : ∀ j, m.heL (m.around^[j] (m.vHalfedge v)) := by
    intro j
    induction j with
    | zero => exact hl
    | succ j ih => rw [Function.iterate_succ_apply']; exact live _ ih
  -- at most one halfedge of an edge leaves v if `around` stays at v
  have uniq : ∀ x y, m.heL x → m.heL y → m.heVertex x = v → m.heVertex y = v → m.heVertex (m.around x) = v → m.heEdge x = m.heEdge y → x = y := by
    intro x y lx ly hx hy ha q
    rcases (hv.two_of_manifold (mAt x lx (.inl hx)) lx ly q).2 with z | z
    · exact z.symm
    · exfalso
      unfold around at ha
      rw [← z] at ha
      exact hs y ly hy ha
  constructor
  · rintro ⟨d0, dh, dm, dv⟩
    -- the halfedges of the walk
    set l := (List.range E.length).map (fun j => m.around^[j] (m.vHalfedge v)) with hl'
    have vAt : ∀ j, j ≤ E.length → m.heVertex (m.around^[j] (m.vHalfedge v)) = v := by
      intro j hj
      rcases Nat.eq_zero_or_pos j with rfl | z
      · exact hh
      · exact dv j z hj
    have lnd : l.Nodup := by
      obtain ⟨k, hk⟩ : ∃ k, E.length = k + 1 := ⟨E.length - 1, by omega⟩
      rw [hl', hk]
      rw [hk] at dh dm
      exact Mesh.orbit_range_nodup dh (fun j hj => dm (j + 1) (by omega) (by omega))
    have memv : ∀ x ∈ l, m.heL x ∧ m.heVertex x = v ∧ m.heVertex (m.around x) = v ∧ Orb m.around (m.vHalfedge v) x := by
      intro x hx
      obtain ⟨j, hj, rfl⟩ := List.mem_map.1 hx
      have hj := List.mem_range.1 hj
      refine ⟨liveN j, vAt j (by omega), ?_, ⟨j, rfl⟩⟩
      rw [← Function.iterate_succ_apply' m.around]
      exact vAt (j + 1) (by omega)
    have mnd : (l.map m.heEdge).Nodup := by
      apply List.Nodup.map_on _ lnd
      intro x hx y hy q
      obtain ⟨a, b, c, -⟩ := memv x hx
      obtain ⟨a', b', -, -⟩ := memv y hy
      exact uniq x y a a' b b' c q
    have sub : l.map m.heEdge ⊆ E := by
      intro e he
      obtain ⟨x, hx, rfl⟩ := List.mem_map.1 he
      obtain ⟨a, b, -, -⟩ := memv x hx
      exact eAt x a (.inl b)
    have perm : (l.map m.heEdge).Perm E := by
      apply List.Subperm.perm_of_length_le (List.subperm_of_subset mnd sub)
      rw [hl']
      simp
    intro h lh hv'
    have := perm.symm.subset (eAt h lh (.inl hv'))
    obtain ⟨x, hx, q⟩ := List.mem_map.1 this
    obtain ⟨a, b, c, f⟩ := memv x hx
    obtain rfl := uniq x h a lh b hv' c q
    exact ⟨c, f⟩
  · intro fan
    -- the outgoing halfedges
    obtain ⟨lo, li, p, -, a2, a3, -⟩ := hv.nbrStates_ok hvl
    have kO : KeyOrb m.around (fun h => if m.heL h ∧ m.heVertex h = v then some 0 else none) := by
      have ks : ∀ h w, (if m.heL h ∧ m.heVertex h = v then some 0 else none) = some w ↔ (m.heL h ∧ m.heVertex h = v) ∧ 0 = w := by
        intro h w
        split_ifs with q
        · simp [q]
        · simp [q]
      have stay : ∀ h, m.heL h ∧ m.heVertex h = v → m.heL (m.around h) ∧ m.heVertex (m.around h) = v := fun h q => ⟨live h q.1, (fan h q.1 q.2).1⟩
      refine ⟨fun h w q => ?_, fun h h' w q q' => ?_⟩
      · obtain ⟨q1, q2⟩ := (ks h w).1 q
        exact (ks _ w).2 ⟨stay h q1, q2⟩
      · obtain ⟨q1, -⟩ := (ks h w).1 q
        obtain ⟨q2, -⟩ := (ks h' w).1 q'
        -- both in the orbit of `v.halfedge()`, which is periodic
        obtain ⟨i, hi⟩ := (fan h q1.1 q1.2).2
        obtain ⟨j, hj⟩ := (fan h' q2.1 q2.2).2
        have per : ∃ k, m.around^[k + 1] (m.vHalfedge v) = m.vHalfedge v := by
          -- pigeonhole on the finitely many live halfedges
          have : ¬ Function.Injective (fun j : Fin (m.nHeFill + 1) => (⟨m.around^[j.1] (m.vHalfedge v), (liveN j.1).1⟩ : Fin m.nHeFill)) := by
            intro q
            have := Fintype.card_le_of_injective _ q
            rw [Fintype.card_fin, Fintype.card_fin] at this
            omega
          rw [Function.not_injective_iff] at this
          obtain ⟨x, y, q, ne⟩ := this
          have q := congrArg Fin.val q
          simp only at q
          have canc : ∀ a b : ℕ, m.around^[a] (m.vHalfedge v) = m.around^[a + b] (m.vHalfedge v) → m.around^[b] (m.vHalfedge v) = m.vHalfedge v := by
            intro a
            induction a with
            | zero => intro b z; rw [Nat.zero_add] at z; exact z.symm
            | succ a ih =>
              intro b z
              apply ih b
              rw [Function.iterate_succ_apply', show a + 1 + b = (a + b) + 1 by omega, Function.iterate_succ_apply'] at z
              exact inj _ _ (liveN _) (liveN _) z
          have nev : x.1 ≠ y.1 := fun z => ne (Fin.ext z)
          rcases Nat.lt_or_gt_of_ne nev with z | z
          · obtain ⟨b, hb⟩ := Nat.exists_eq_add_of_lt z
            rw [hb, Nat.add_assoc] at q
            exact ⟨b, canc _ _ q⟩
          · obtain ⟨b, hb⟩ := Nat.exists_eq_add_of_lt z
            rw [hb, Nat.add_assoc] at q
            exact ⟨b, canc _ _ q.symm⟩
        obtain ⟨k, hk⟩ := per
        -- from h go on to the start, then to h'
        have hmul : ∀ t, m.around^[t * (k + 1)] (m.vHalfedge v) = m.vHalfedge v := by
          intro t
          induction t with
          | zero => rw [Nat.zero_mul]; rfl
          | succ t ih => rw [Nat.succ_mul, Function.iterate_add_apply, hk, ih]
        refine ⟨i * (k + 1) - i + j, ?_⟩
        rw [← hi, ← hj, ← Function.iterate_add_apply, show i * (k + 1) - i + j + i = j + i * (k + 1) by
          have : i ≤ i * (k + 1) := Nat.le_mul_of_pos_right _ (by omega)
          omega, Function.iterate_add_apply, hmul]
    have k0 : (fun h => if m.heL h ∧ m.heVertex h = v then some 0 else none) (m.vHalfedge v) = some 0 := if_pos ⟨hl, hh⟩
    obtain ⟨k, hk, o1, o2, o3⟩ := Mesh.orbitList_ok (N := m.nHeFill) (kO.orb _ _ 0 (kO.mem _ _ k0) k0)
      (fun z ⟨j, hz⟩ => by rw [← hz]; exact (liveN j).1)
    -- their edges are all edges at v
    have lnd := Mesh.orbit_range_nodup o1 o2
    set l := (List.range (k + 1)).map (fun j => m.around^[j] (m.vHalfedge v)) with hl'
    have meml : ∀ x, x ∈ l ↔ m.heL x ∧ m.heVertex x = v := by
      intro x
      rw [hl', Mesh.orbit_range_mem o1]
      constructor
      · intro ho
        have := kO.mem_orb k0 ho
        split_ifs at this with q
        exact q
      · intro q
        exact (fan x q.1 q.2).2
    have mnd : (l.map m.heEdge).Nodup := by
      apply List.Nodup.map_on _ lnd
      intro x hx y hy q
      obtain ⟨a, b⟩ := (meml x).1 hx
      obtain ⟨a', b'⟩ := (meml y).1 hy
      exact uniq x y a a' b b' (fan x a b).1 q
    have perm : (l.map m.heEdge).Perm E := by
      rw [List.perm_ext_iff_of_nodup mnd nd]
      intro e
      constructor
      · intro he
        obtain ⟨x, hx, rfl⟩ := List.mem_map.1 he
        obtain ⟨a, b⟩ := (meml x).1 hx
        exact eAt x a (.inl b)
      · intro he
        have el := e4 e he
        obtain ⟨lg, eg⟩ := hv.e_he e el
        rw [List.mem_map]
        rcases (mem_of_count e5 el).1 he with q | q
        · exact ⟨_, (meml _).2 ⟨lg, q⟩, eg⟩
        · -- an incoming halfedge: `next` leaves v and has a predecessor around v
          have q1 : m.heNext (m.eHalfedge e) ∈ l := (meml _).2 ⟨hv.next_live _ lg, q⟩
          have q2 : (fun h => if m.heL h ∧ m.heVertex h = v then some 0 else none) (m.heNext (m.eHalfedge e)) = some 0 := if_pos ⟨hv.next_live _ lg, q⟩
          obtain ⟨x, x1, x2⟩ := kO.pred q2
          split_ifs at x1 with x3
          have := hv.next_inj (hv.sib_live _ x3.1) lg x2
          refine ⟨x, (meml x).2 x3, ?_⟩
          rw [← hv.edge_sib x3.1, this, eg]
    have len : E.length = k + 1 := by
      rw [← perm.length_eq, hl']
      simp
    rw [len]
    refine ⟨by omega, o1, fun j a b => ?_, fun j a b => ?_⟩
    · obtain ⟨i, rfl⟩ : ∃ i, j = i + 1 := ⟨j - 1, by omega⟩
      exact o2 i (by omega)
    · have := kO.mem_orb k0 ⟨j, rfl⟩
      split_ifs at this with q
      exact q.2

/-- **C77, refuted: a vertex on the boundary is never reported as manifold and oriented.** -/
theorem C77_oriented_boundary {m : GMesh} (hv : m.Valid) {v : ℕ} (hvl : m.vL v)
    (hm : ∀ e, m.eL e → m.firstVertex e = v ∨ m.secondVertex e = v → m.isManifold e = true)
    (hs : ∀ h, m.heL h → m.heVertex h = v → m.tip h ≠ v) {h : ℕ} (hl : m.heL h) (hb : m.heSibling h = h) (he : m.heVertex h = v) :
    m.isManifoldAndOriented v = .ok false := by
  obtain ⟨b, r, q⟩ := C77_oriented_partial hv hvl hm hs
  rw [r]
  congr 1
  by_contra z
  have := (q.1 (by simpa using z) h hl he).1
  unfold around at this
  rw [hb] at this
  exact hs h hl he this

/-! ### `Vertex::isManifold` -/

theorem mem_push (seen : List ℕ) (x : ℕ) : ∀ (l st : List ℕ),
    x ∈ l.foldl (fun st fn => if fn ∈ seen then st else fn :: st) st ↔ x ∈ st ∨ (x ∈ l ∧ x ∉ seen) := by
  intro l
  induction l with
  | nil => intro st; simp
  | cons a l ih =>
    intro st
    rw [List.foldl_cons, ih]
    by_cases h : a ∈ seen
    · rw [if_pos h]
      constructor
      · rintro (q | q)
        · exact .inl q
        · exact .inr ⟨List.mem_cons_of_mem _ q.1, q.2⟩
      · rintro (q | ⟨q, r⟩)
        · exact .inl q
        · rcases List.mem_cons.1 q with rfl | q
          · exact absurd h r
          · exact .inr ⟨q, r⟩
    · rw [if_neg h, List.mem_cons, List.mem_cons]
      constructor
      · rintro ((rfl | q) | q)
        · exact .inr ⟨.inl rfl, h⟩
        · exact .inl q
        · exact .inr ⟨.inr q.1, q.2⟩
      · rintro (q | ⟨q | q, r⟩)
        · exact .inl (.inr q)
        · exact .inl (.inl q)
        · exact .inr ⟨q, r⟩

theorem length_push (seen : List ℕ) : ∀ (l st : List ℕ),
    (l.foldl (fun st fn => if fn ∈ seen then st else fn :: st) st).length ≤ st.length + l.length := by
  intro l
  induction l with
  | nil => intro st; simp
  | cons a l ih =>
    intro st
    rw [List.foldl_cons]
    refine (ih _).trans ?_
    split_ifs <;> simp only [List.length_cons] <;> omega

/-- **The search** finds what can be reached. -/
theorem search_spec {nbrs : ℕ → Res (List ℕ)} {nb : ℕ → List ℕ} {S : ℕ → Prop} {N K : ℕ} (hN : ∀ f, S f → f < N)
    (hnb : ∀ f, S f → nbrs f = .ok (nb f) ∧ (nb f).length ≤ K ∧ ∀ x ∈ nb f, S x) {s : ℕ} :
    ∀ fuel stack seen, (∀ f ∈ stack, S f) → (∀ f ∈ seen, S f) → seen.Nodup → (N - seen.length) * (K + 1) + stack.length < fuel →
      (∀ f, f ∈ seen ∨ f ∈ stack → Relation.ReflTransGen (fun f g => g ∈ nb f) s f) → (s ∈ seen ∨ s ∈ stack) →
      (∀ f ∈ seen, ∀ x ∈ nb f, x ∈ seen ∨ x ∈ stack) →
      ∃ r, search nbrs fuel stack seen = .ok r ∧ ∀ x, x ∈ r ↔ Relation.ReflTransGen (fun f g => g ∈ nb f) s x := by
  intro fuel
  induction fuel with
  | zero => intro _ _ _ _ _ h; omega
  | succ n ih =>
    intro stack seen h1 h2 h3 h4 h5 h6 h7
    have bound : seen.length ≤ N := by
      have := (List.subperm_of_subset h3 (l₂ := List.range N) (fun f q => List.mem_range.2 (hN f (h2 f q)))).length_le
      rw [List.length_range] at this
      exact this
    cases stack with
    | nil =>
      refine ⟨seen, rfl, fun x => ⟨fun q => h5 x (.inl q), fun q => ?_⟩⟩
      induction q with
      | refl => exact h6.resolve_right (by simp)
      | tail _ b ih => exact (h7 _ ih _ b).resolve_right (by simp)
    | cons f st =>
      unfold search
      by_cases c : f ∈ seen
      · rw [if_pos c]
        have or' : ∀ x, x ∈ seen ∨ x ∈ f :: st → x ∈ seen ∨ x ∈ st := by
          rintro x (q | q)
          · exact .inl q
          · rcases List.mem_cons.1 q with rfl | q
            · exact .inl c
            · exact .inr q
        exact ih st seen (fun x q => h1 x (List.mem_cons_of_mem _ q)) h2 h3 (by rw [List.length_cons] at h4; omega)
          (fun x q => h5 x (q.imp id (List.mem_cons_of_mem _))) (or' _ h6) (fun g hg x hx => or' _ (h7 g hg x hx))
      · rw [if_neg c]
        have Sf := h1 f (by simp)
        obtain ⟨n1, n2, n3⟩ := hnb f Sf
        rw [n1]
        simp only
        have lt : seen.length < N := by
          have nd : (f :: seen).Nodup := List.nodup_cons.2 ⟨c, h3⟩
          have := (List.subperm_of_subset nd (l₂ := List.range N) (fun g q => List.mem_range.2 (hN g (by
            rcases List.mem_cons.1 q with rfl | q
            · exact Sf
            · exact h2 g q)))).length_le
          rw [List.length_range, List.length_cons] at this
          exact this
        have Rf := h5 f (.inr (by simp))
        apply ih
        · intro x q
          rcases (mem_push _ _ _ _).1 q with q | q
          · exact h1 x (List.mem_cons_of_mem _ q)
          · exact n3 x q.1
        · intro x q
          rcases List.mem_cons.1 q with rfl | q
          · exact Sf
          · exact h2 x q
        · exact List.nodup_cons.2 ⟨c, h3⟩
        · have := length_push (f :: seen) (nb f) st
          rw [List.length_cons] at h4 ⊢
          obtain ⟨t, ht⟩ : ∃ t, N - seen.length = t + 1 := ⟨N - seen.length - 1, by omega⟩
          rw [ht, Nat.succ_mul] at h4
          rw [show N - (seen.length + 1) = t by omega]
          omega
        · rintro x (q | q)
          · rcases List.mem_cons.1 q with rfl | q
            · exact Rf
            · exact h5 x (.inl q)
          · rcases (mem_push _ _ _ _).1 q with q | q
            · exact h5 x (.inr (List.mem_cons_of_mem _ q))
            · exact .tail Rf q.1
        · rcases h6 with q | q
          · exact .inl (List.mem_cons_of_mem _ q)
          · rcases List.mem_cons.1 q with rfl | q
            · exact .inl (by simp)
            · exact .inr ((mem_push _ _ _ _).2 (.inl q))
        · intro g hg x hx
          by_cases z : x ∈ f :: seen
          · exact .inl z
          · rcases List.mem_cons.1 hg with rfl | hg
            · exact .inr ((mem_push _ _ _ _).2 (.inr ⟨hx, z⟩))
            · rcases h7 g hg x hx with q | q
              · exact .inl (List.mem_cons_of_mem _ q)
              · rcases List.mem_cons.1 q with rfl | q
                · exact .inl (by simp)
                · exact .inr ((mem_push _ _ _ _).2 (.inl q))

theorem rtg_symm {α : Type} {r : α → α → Prop} (hr : ∀ x y, r x y → r y x) {a b : α} (h : Relation.ReflTransGen r a b) : Relation.ReflTransGen r b a := by
  induction h with
  | refl => exact .refl
  | tail _ q ih => exact .head (hr _ _ q) ih

/-- Faces `f` and `g` meet in an edge at `v`. -/
def FaceAdj (m : GMesh) (v f g : ℕ) : Prop :=
  ∃ h h', m.heL h ∧ m.heL h' ∧ m.heEdge h = m.heEdge h' ∧ (m.heVertex h = v ∨ m.tip h = v) ∧ m.heFace h = f ∧ m.heFace h' = g

theorem FaceAdj.symm {m : GMesh} (hv : m.Valid) {v f g : ℕ} (h : m.FaceAdj v f g) : m.FaceAdj v g f := by
  obtain ⟨a, b, la, lb, e, q, r, s⟩ := h
  refine ⟨b, a, lb, la, e.symm, ?_, s, r⟩
  have := hv.orient a b la lb e
  unfold aligned at this
  split_ifs at this <;> omega

theorem Valid.faceNbrs_ok {m : GMesh} (hv : m.Valid) (v : ℕ) {f : ℕ} (hf : m.fL f) :
    ∃ l, m.faceNbrs v f = .ok l ∧ l.length ≤ m.nHeFill * m.nHeFill ∧ ∀ x, x ∈ l ↔ m.FaceAdj v f x := by
  obtain ⟨hs, a1, a2, a3, k, a4, a5, -⟩ := hv.faceHalfedges_ok hf
  obtain ⟨l, b1, b2, b3⟩ := foldlM_inv (l := hs) (s0 := ([] : List ℕ)) (f := fun acc he =>
      if m.heVertex he = v ∨ m.heVertex (m.heNext he) = v then do
        let es ← m.edgeHalfedges (m.heEdge he)
        .ok (acc ++ es.map m.heFace)
      else .ok acc)
    (fun p acc => acc.length ≤ p.length * m.nHeFill ∧ ∀ x, x ∈ acc ↔ ∃ h ∈ p, ∃ h', m.heL h' ∧ m.heEdge h = m.heEdge h' ∧ (m.heVertex h = v ∨ m.tip h = v) ∧ m.heFace h' = x)
    ⟨by simp, by simp⟩
    (by
      rintro p h q acc hp ⟨c1, c2⟩
      have hl : m.heL h := ((a3 h).1 (by rw [hp]; simp)).1
      by_cases c : m.heVertex h = v ∨ m.heVertex (m.heNext h) = v
      · rw [if_pos c]
        obtain ⟨es, d1, d2, d3, j, d4, d5, -⟩ := hv.edgeHalfedges_ok (hv.edge_live h hl)
        rw [d1]
        refine ⟨_, rfl, ?_, fun x => ?_⟩
        · rw [List.length_append, List.length_map, List.length_append, Nat.add_mul]
          have : es.length ≤ m.nHeFill := by rw [d5, List.length_map, List.length_range]; exact d4
          simp only [List.length_cons, List.length_nil]
          omega
        · rw [List.mem_append, c2, List.mem_map]
          constructor
          · rintro (⟨y, y1, y2⟩ | ⟨y, y1, y2⟩)
            · exact ⟨y, by simp [y1], y2⟩
            · obtain ⟨z1, z2⟩ := (d3 y).1 y1
              exact ⟨h, by simp, y, z1, z2.symm, c, y2⟩
          · rintro ⟨y, y1, y', y2, y3, y4, y5⟩
            rcases List.mem_append.1 y1 with y1 | y1
            · exact .inl ⟨y, y1, y', y2, y3, y4, y5⟩
            · rw [List.mem_singleton] at y1
              subst y1
              exact .inr ⟨y', (d3 y').2 ⟨y2, y3.symm⟩, y5⟩
      · rw [if_neg c]
        refine ⟨acc, rfl, ?_, fun x => ?_⟩
        · rw [List.length_append, Nat.add_mul]
          omega
        · rw [c2]
          constructor
          · rintro ⟨y, y1, y2⟩
            exact ⟨y, by simp [y1], y2⟩
          · rintro ⟨y, y1, y', y2, y3, y4, y5⟩
            rcases List.mem_append.1 y1 with y1 | y1
            · exact ⟨y, y1, y', y2, y3, y4, y5⟩
            · rw [List.mem_singleton] at y1
              subst y1
              exact absurd y4 c)
  refine ⟨l, ?_, ?_, fun x => ?_⟩
  · unfold faceNbrs
    rw [a1]
    exact b1
  · refine b2.trans (Nat.mul_le_mul_right _ ?_)
    rw [a5, List.length_map, List.length_range]
    exact a4
  · rw [b3]
    constructor
    · rintro ⟨h, h1, h', h2, h3, h4, h5⟩
      obtain ⟨z1, z2⟩ := (a3 h).1 h1
      exact ⟨h, h', z1, h2, h3, h4, z2, h5⟩
    · rintro ⟨h, h', z1, h2, h3, h4, z2, h5⟩
      exact ⟨h, (a3 h).2 ⟨z1, z2⟩, h', h2, h3, h4, h5⟩

/-- **C77, what `Vertex::isManifold` tests:** the edges at `v` are manifold and the faces at `v` are connected through edges at `v`. -/
theorem C77_isManifold {m : GMesh} (hv : m.Valid) {v : ℕ} (hvl : m.vL v) :
    ∃ b, m.vIsManifold v = .ok b ∧ (b = true ↔ (∀ e, m.eL e → m.firstVertex e = v ∨ m.secondVertex e = v → m.isManifold e = true) ∧
      ∀ h h', m.heL h → m.heL h' → m.heVertex h = v → m.heVertex h' = v → Relation.ReflTransGen (m.FaceAdj v) (m.heFace h) (m.heFace h')) := by
  obtain ⟨E, W, e1, -, -, e4, e5, -⟩ := C77_neighbours hv hvl
  obtain ⟨lo, li, p, o1, -, o3, -⟩ := hv.nbrStates_ok hvl
  obtain ⟨hl, hh⟩ := hv.v_he v hvl
  have iffE : E.all m.isManifold = true ↔ ∀ e, m.eL e → m.firstVertex e = v ∨ m.secondVertex e = v → m.isManifold e = true := by
    rw [List.all_eq_true]
    exact ⟨fun q e el z => q e ((mem_of_count e5 el).2 z), fun q e he => q e (e4 e he) ((mem_of_count e5 (e4 e he)).1 he)⟩
  unfold vIsManifold
  rw [e1]
  simp only [bind, Except.bind]
  by_cases c : E.all m.isManifold = true
  · rw [if_pos c]
    have nbx : ∀ f, m.fL f → ∃ l, m.faceNbrs v f = .ok l ∧ l.length ≤ m.nHeFill * m.nHeFill ∧ ∀ x, x ∈ l ↔ m.FaceAdj v f x := fun f hf => hv.faceNbrs_ok v hf
    classical
    let nb : ℕ → List ℕ := fun f => if hf : m.fL f then (nbx f hf).choose else []
    have nb1 : ∀ f (hf : m.fL f), m.faceNbrs v f = .ok (nb f) ∧ (nb f).length ≤ m.nHeFill * m.nHeFill ∧ ∀ x, x ∈ nb f ↔ m.FaceAdj v f x := by
      intro f hf
      have : nb f = (nbx f hf).choose := dif_pos hf
      rw [this]
      exact (nbx f hf).choose_spec
    have adjL : ∀ f g, m.FaceAdj v f g → m.fL f ∧ m.fL g := by
      rintro f g ⟨a, b, la, lb, -, -, rfl, rfl⟩
      exact ⟨hv.face_live a la, hv.face_live b lb⟩
    obtain ⟨seen, r1, r2⟩ := search_spec (nbrs := m.faceNbrs v) (nb := nb) (S := m.fL) (N := m.nFFill) (K := m.nHeFill * m.nHeFill)
      (s := m.heFace (m.vHalfedge v)) (fun f hf => hf.1)
      (fun f hf => ⟨(nb1 f hf).1, (nb1 f hf).2.1, fun x hx => (adjL f x (((nb1 f hf).2.2 x).1 hx)).2⟩)
      ((m.nFFill + 1) * (m.nHeFill * m.nHeFill + 1) + 2) [m.heFace (m.vHalfedge v)] []
      (by intro f q; rw [List.mem_singleton] at q; rw [q]; exact hv.face_live _ hl) (by simp) (by simp)
      (by rw [Nat.succ_mul]; simp only [List.length_nil, List.length_cons, Nat.sub_zero]; omega)
      (by rintro f (q | q)
          · cases q
          · rw [List.mem_singleton] at q; rw [q])
      (.inr (by simp)) (by simp)
    rw [r1]
    simp only
    unfold adjacentFaces
    rw [o1]
    simp only [Except.map]
    refine ⟨_, rfl, ?_⟩
    have conv : ∀ x, Relation.ReflTransGen (fun f g => g ∈ nb f) (m.heFace (m.vHalfedge v)) x ↔ Relation.ReflTransGen (m.FaceAdj v) (m.heFace (m.vHalfedge v)) x := by
      intro x
      constructor
      · intro q
        have : m.fL x ∧ Relation.ReflTransGen (m.FaceAdj v) (m.heFace (m.vHalfedge v)) x := by
          induction q with
          | refl => exact ⟨hv.face_live _ hl, .refl⟩
          | tail _ b ih =>
            have := ((nb1 _ ih.1).2.2 _).1 b
            exact ⟨(adjL _ _ this).2, .tail ih.2 this⟩
        exact this.2
      · intro q
        induction q with
        | refl => exact .refl
        | tail _ b ih => exact .tail ih (((nb1 _ (adjL _ _ b).1).2.2 _).2 b)
    rw [List.all_eq_true]
    constructor
    · intro q
      refine ⟨iffE.1 c, fun h h' l l' z z' => ?_⟩
      have key : ∀ h, m.heL h → m.heVertex h = v → Relation.ReflTransGen (m.FaceAdj v) (m.heFace (m.vHalfedge v)) (m.heFace h) := by
        intro h l z
        have := q _ (List.mem_map.2 ⟨h, (o3 h).2 ⟨l, z⟩, rfl⟩)
        rw [decide_eq_true_eq, r2, conv] at this
        exact this
      exact (rtg_symm (fun _ _ q => FaceAdj.symm hv q) (key h l z)).trans (key h' l' z')
    · rintro ⟨-, q⟩ f hf
      obtain ⟨h, h1, rfl⟩ := List.mem_map.1 hf
      obtain ⟨l, z⟩ := (o3 h).1 h1
      rw [decide_eq_true_eq, r2, conv]
      exact q _ _ hl l hh z
  · rw [if_neg c]
    refine ⟨false, rfl, ⟨fun q => (by cases q), fun q => absurd (iffE.2 q.1) c⟩⟩

theorem conn_faceAdj {m : GMesh} (hv : m.Valid) {v : ℕ} : ∀ x y, Conn m.CornerAdj x y → m.heL x → m.heVertex x = v →
    Relation.ReflTransGen (m.FaceAdj v) (m.heFace x) (m.heFace y) := by
  intro x y c
  induction c with
  | refl => intro _ _; exact .refl
  | symm x y c ih =>
    intro ly vy
    have := conn_ends hv c
    have lx := this.1.2 ly
    exact rtg_symm (fun _ _ q => FaceAdj.symm hv q) (ih lx ((this.2 lx).trans vy))
  | trans x y w c c' ih ih' =>
    intro lx vx
    have := conn_ends hv c
    exact (ih lx vx).trans (ih' (this.1.1 lx) ((this.2 lx).symm.trans vx))
  | rel x y c =>
    intro lx vx
    have hxy := c.ends hv
    obtain ⟨a, la, sa, c⟩ := c
    have lb := hv.sib_live a la
    apply Relation.ReflTransGen.single
    have fan := hv.face_next la
    have fbn := hv.face_next lb
    split_ifs at c with o
    · rcases c with ⟨rfl, rfl⟩ | ⟨rfl, rfl⟩
      · exact ⟨_, _, la, lb, (hv.edge_sib la).symm, .inl vx, rfl, rfl⟩
      · exact ⟨a, _, la, lb, (hv.edge_sib la).symm, .inr vx, fan.symm, fbn.symm⟩
    · rcases c with ⟨rfl, rfl⟩ | ⟨rfl, rfl⟩
      · exact ⟨a, _, la, lb, (hv.edge_sib la).symm, .inr vx, fan.symm, rfl⟩
      · exact ⟨_, _, la, lb, (hv.edge_sib la).symm, .inl vx, rfl, fbn.symm⟩

/-- **C77, partial: `Vertex::isManifold` tells whether the corners at `v` are one fan**, if no face meets `v` twice. -/
theorem C77_fan_partial {m : GMesh} (hv : m.Valid) {v : ℕ} (hvl : m.vL v)
    (once : ∀ h h', m.heL h → m.heL h' → m.heVertex h = v → m.heVertex h' = v → m.heFace h = m.heFace h' → h = h') :
    ∃ b, m.vIsManifold v = .ok b ∧ (b = true ↔ (∀ e, m.eL e → m.firstVertex e = v ∨ m.secondVertex e = v → m.isManifold e = true) ∧
      ∀ h h', m.heL h → m.heL h' → m.heVertex h = v → m.heVertex h' = v → Conn m.CornerAdj h h') := by
  obtain ⟨b, b1, b2⟩ := C77_isManifold hv hvl
  refine ⟨b, b1, b2.trans (and_congr_right fun hm => ⟨fun H h h' l l' z z' => ?_, fun H h h' l l' z z' => ?_⟩)⟩
  · have key : ∀ g, Relation.ReflTransGen (m.FaceAdj v) (m.heFace h) g → ∀ y, m.heL y → m.heVertex y = v → m.heFace y = g → Conn m.CornerAdj h y := by
      intro g q
      induction q with
      | refl =>
        intro y ly vy fy
        rw [once h y l ly z vy fy.symm]
        exact .refl _
      | @tail f g _ st ih =>
        intro y ly vy fy
        obtain ⟨a, b, la, lb, e, q, rfl, rfl⟩ := st
        have em : m.isManifold (m.heEdge a) = true := by
          apply hm _ (hv.edge_live a la)
          rcases hv.ends la with ⟨x1, x2⟩ | ⟨x1, x2⟩
          · rw [x1, x2]; exact q
          · rw [x1, x2]; exact q.symm
        have lan := hv.next_live _ la
        have lbn := hv.next_live _ lb
        have fan := hv.face_next la
        have fbn := hv.face_next lb
        rcases (hv.two_of_manifold em la lb e).2 with r | r
        · subst r
          exact ih y ly vy fy
        · by_cases sa : m.heSibling a = a
          · rw [sa] at r
            subst r
            exact ih y ly vy fy
          · have al := hv.orient a b la lb e
            subst r
            unfold aligned at al
            by_cases o : m.heOrient a = m.heOrient (m.heSibling a)
            · rw [if_pos o] at al
              rcases q with q | q
              · rw [← once _ y lb ly (al.1.symm.trans q) vy fy.symm]
                exact .trans _ _ _ (ih a la q rfl) (.rel _ _ ⟨a, la, sa, by rw [if_pos o]; exact .inl ⟨rfl, rfl⟩⟩)
              · rw [← once _ y lbn ly (al.2.symm.trans q) vy (fbn.trans fy.symm)]
                exact .trans _ _ _ (ih _ lan q fan) (.rel _ _ ⟨a, la, sa, by rw [if_pos o]; exact .inr ⟨rfl, rfl⟩⟩)
            · rw [if_neg o] at al
              rcases q with q | q
              · rw [← once _ y lbn ly (al.1.symm.trans q) vy (fbn.trans fy.symm)]
                exact .trans _ _ _ (ih a la q rfl) (.rel _ _ ⟨a, la, sa, by rw [if_neg o]; exact .inr ⟨rfl, rfl⟩⟩)
              · rw [← once _ y lb ly (al.2.symm.trans q) vy fy.symm]
                exact .trans _ _ _ (ih _ lan q fan) (.rel _ _ ⟨a, la, sa, by rw [if_neg o]; exact .inl ⟨rfl, rfl⟩⟩)
    exact key _ (H h h' l l' z z') h' l' z' rfl
  · exact conn_faceAdj hv h h' (H h h' l l' z z') l z

/-! ### Witnesses -/

/-- One hexagon that meets vertex 0 twice. -/
def pinch : List (List ℕ) := [[0, 1, 2, 0, 3, 4]]
def pinchOrder : List (ℕ × ℕ) := [(0, 1), (1, 2), (0, 2), (0, 3), (3, 4), (0, 4)]

theorem pinch_built : ∃ m, fromPolygons pinch pinchOrder = .ok m ∧ Built pinch m :=
  C24 pinch pinchOrder (by decide) (by decide) (by decide) (by decide) (by decide) (by decide)

def navTest (r : Res GMesh) (v : ℕ) : Option (Bool × Bool × ℕ × ℕ) :=
  match r with
  | .error _ => none
  | .ok m => match m.vIsManifold v, m.isManifoldAndOriented v, m.degree v with
    | .ok a, .ok b, .ok d => some (a, b, d, m.nHeFill)
    | _, _, _ => none

/-- Every corner of `v` is alone in its face, every edge at `v` is manifold and no loop. -/
def hypTest (r : Res GMesh) (v : ℕ) : Bool × Bool × Bool × Bool :=
  match r with
  | .error _ => (false, false, false, false)
  | .ok m => (decide (v < m.nVFill ∧ m.vHalfedge v ≠ INV),
      (List.range m.nHeFill).all (fun h => (List.range m.nHeFill).all (fun h' => m.heVertex h != v || m.heVertex h' != v || m.heFace h != m.heFace h' || h == h')),
      (List.range m.nEFill).all m.isManifold,
      (List.range m.nHeFill).all (fun h => m.heVertex h != v || m.tip h != v))

/-- `Vertex::isManifold` accepts the pinched vertex, though its two corners share no edge. -/
theorem C77_fan_refuted : ∃ m v h h', fromPolygons pinch pinchOrder = .ok m ∧ m.Valid ∧ m.vL v ∧ m.vIsManifold v = .ok true ∧
    m.heL h ∧ m.heL h' ∧ m.heVertex h = v ∧ m.heVertex h' = v ∧ ¬ Conn m.CornerAdj h h' := by
  obtain ⟨m, e, hb⟩ := pinch_built
  have t : (match fromPolygons pinch pinchOrder with
    | .ok m => (decide (0 < m.nVFill ∧ m.vHalfedge 0 ≠ INV), m.vIsManifold 0, decide (0 < m.nHeFill ∧ m.heNext 0 ≠ INV ∧ m.heVertex 0 = 0),
        decide (3 < m.nHeFill ∧ m.heNext 3 ≠ INV ∧ m.heVertex 3 = 0), (List.range m.nHeFill).all (fun h => m.heSibling h == h))
    | .error x => (false, .error x, false, false, false)) = (true, .ok true, true, true, true) := rfl
  rw [e] at t
  simp only [Prod.mk.injEq, decide_eq_true_eq, List.all_eq_true, List.mem_range, beq_iff_eq] at t
  obtain ⟨t1, t2, t3, t4, t5⟩ := t
  refine ⟨m, 0, 0, 3, e, hb.valid, t1, t2, ⟨t3.1, t3.2.1⟩, ⟨t4.1, t4.2.1⟩, t3.2.2, t4.2.2, fun c => ?_⟩
  have : ∀ x y, Conn m.CornerAdj x y → x = y := by
    intro x y c
    induction c with
    | rel x y c =>
      obtain ⟨a, la, sa, -⟩ := c
      exact absurd (t5 a la.1) sa
    | refl => rfl
    | symm _ _ _ ih => exact ih.symm
    | trans _ _ _ _ _ a b => exact a.trans b
  cases this _ _ c

/-- `Vertex::isManifoldAndOriented` rejects the corners of a single triangle. -/
theorem C77_oriented_refuted : ∃ m, fromPolygons [[0, 1, 2]] [(0, 1), (1, 2), (0, 2)] = .ok m ∧ m.Valid ∧ m.vIsManifold 0 = .ok true ∧ m.isManifoldAndOriented 0 = .ok false := by
  obtain ⟨m, e, hb⟩ := C24 [[0, 1, 2]] [(0, 1), (1, 2), (0, 2)] (by decide) (by decide) (by decide) (by decide) (by decide) (by decide)
  have t : (match fromPolygons [[0, 1, 2]] [(0, 1), (1, 2), (0, 2)] with
    | .ok m => (m.vIsManifold 0, m.isManifoldAndOriented 0)
    | .error x => (.error x, .error x)) = (.ok true, .ok false) := rfl
  rw [e] at t
  simp only [Prod.mk.injEq] at t
  exact ⟨m, e, hb.valid, t.1, t.2⟩

/-- A tetrahedron. -/
def tet : List (List ℕ) := [[0, 1, 2], [0, 3, 1], [1, 3, 2], [2, 3, 0]]
def tetOrder : List (ℕ × ℕ) := [(0, 1), (1, 2), (0, 2), (0, 3), (1, 3), (2, 3)]

theorem tet_built : ∃ m, fromPolygons tet tetOrder = .ok m ∧ Built tet m :=
  C24 tet tetOrder (by decide) (by decide) (by decide) (by decide) (by decide) (by decide)

theorem tet_test : navTest (fromPolygons tet tetOrder) 0 = some (true, true, 3, 12) ∧ hypTest (fromPolygons tet tetOrder) 0 = (true, true, true, true) := ⟨rfl, rfl⟩
theorem bow_test : navTest (fromPolygons bow bowOrder) 0 = some (false, false, 4, 6) ∧ hypTest (fromPolygons bow bowOrder) 0 = (true, true, true, true) := ⟨rfl, rfl⟩

/-- The hypotheses of the theorems hold at vertex 0 of the tetrahedron, a closed fan, and of two triangles that meet there, no fan. -/
example : ∃ m, fromPolygons tet tetOrder = .ok m ∧ m.ClosedFan 0 ∧ m.degree 0 = .ok 3 ∧
    ∀ h h', m.heL h → m.heL h' → m.heVertex h = 0 → m.heVertex h' = 0 → Conn m.CornerAdj h h' := by
  obtain ⟨m, e, hb⟩ := tet_built
  obtain ⟨t, u⟩ := tet_test
  rw [e] at t u
  simp only [hypTest, Prod.mk.injEq, decide_eq_true_eq, List.all_eq_true, List.mem_range, Bool.or_eq_true, bne_iff_ne, beq_iff_eq, ne_eq] at u
  obtain ⟨u1, u2, u3, u4⟩ := u
  have hvl : m.vL 0 := u1
  obtain ⟨b, q, r⟩ := C77_oriented_partial hb.valid hvl (fun e he _ => u3 e he.1) (fun h l z => by rcases u4 h l.1 with k | k; exacts [absurd z k, k])
  obtain ⟨b', q', r'⟩ := C77_fan_partial hb.valid hvl (fun h h' l l' z z' y => by
    rcases u2 h l.1 h' l'.1 with ((k | k) | k) | k
    exacts [absurd z k, absurd z' k, absurd y k, k])
  obtain ⟨E, -, -, -, d, -⟩ := C77_neighbours hb.valid hvl
  simp only [navTest] at t
  rw [q, q', d] at t
  simp only [Option.some.injEq, Prod.mk.injEq] at t
  exact ⟨m, e, r.1 t.2.1, d.trans (by rw [t.2.2.1]), (r'.1 t.1).2⟩

example : ∃ m, fromPolygons bow bowOrder = .ok m ∧ ¬ ∀ h h', m.heL h → m.heL h' → m.heVertex h = 0 → m.heVertex h' = 0 → Conn m.CornerAdj h h' := by
  obtain ⟨m, e, hb⟩ := bow_built
  obtain ⟨t, u⟩ := bow_test
  rw [e] at t u
  simp only [hypTest, Prod.mk.injEq, decide_eq_true_eq, List.all_eq_true, List.mem_range, Bool.or_eq_true, bne_iff_ne, beq_iff_eq, ne_eq] at u
  obtain ⟨u1, u2, u3, u4⟩ := u
  have hvl : m.vL 0 := u1
  obtain ⟨b', q', r'⟩ := C77_fan_partial hb.valid hvl (fun h h' l l' z z' y => by
    rcases u2 h l.1 h' l'.1 with ((k | k) | k) | k
    exacts [absurd z k, absurd z' k, absurd y k, k])
  refine ⟨m, e, fun H => ?_⟩
  have := r'.2 ⟨fun e he _ => u3 e he.1, H⟩
  subst this
  simp only [navTest] at t
  rw [q'] at t
  split at t
  · simp only [Option.some.injEq, Prod.mk.injEq] at t
    rename_i h1 _ _
    injection h1 with h1
    rw [← h1] at t
    cases t.1
  · cases t

end GC.GMesh
