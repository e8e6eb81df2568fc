import Verif.GRich
import Verif.Props.Rich
import Verif.Props.GFlip

/-! # C36 for general meshes: saving and loading with `RichSurfaceMeshData` -/

namespace GC.GMesh

/-- Indices are small enough for 32 bits. -/
def Small (m : GMesh) : Prop := m.nHeFill < 2 ^ 32 ∧ m.nVFill < 2 ^ 32 ∧ m.nEFill < 2 ^ 32 ∧ m.nFFill < 2 ^ 32

/-- Two meshes agree on everything that is in use, except the order of the vertex lists. -/
structure Agree (m m' : GMesh) : Prop where
  fills : m'.nHeFill = m.nHeFill ∧ m'.nVFill = m.nVFill ∧ m'.nEFill = m.nEFill ∧ m'.nFFill = m.nFFill
  next : ∀ i < m.nHeFill, m'.heNext i = m.heNext i
  vert : ∀ i, m.heL i → m'.heVertex i = m.heVertex i
  face : ∀ i, m.heL i → m'.heFace i = m.heFace i
  sib : ∀ i, m.heL i → m'.heSibling i = m.heSibling i
  edge : ∀ i, m.heL i → m'.heEdge i = m.heEdge i
  orient : ∀ i, m.heL i → m'.heOrient i = m.heOrient i
  vh : ∀ v < m.nVFill, m'.vHalfedge v = m.vHalfedge v
  eh : ∀ e < m.nEFill, m'.eHalfedge e = m.eHalfedge e
  fh : ∀ f < m.nFFill, m'.fHalfedge f = m.fHalfedge f

theorem orb_agree {f g : ℕ → ℕ} {P : ℕ → Prop} (hc : ∀ i, P i → P (f i)) (he : ∀ i, P i → g i = f i) {i j : ℕ} (hi : P i) :
    Orb g i j ↔ Orb f i j := by
  have : ∀ k, P (f^[k] i) ∧ g^[k] i = f^[k] i := by
    intro k
    induction k with
    | zero => exact ⟨hi, rfl⟩
    | succ k ih =>
      rw [Function.iterate_succ_apply', Function.iterate_succ_apply', ih.2]
      exact ⟨hc _ ih.1, he _ ih.1⟩
  unfold Orb
  exact exists_congr fun k => by rw [(this k).2]

namespace Agree
variable {m m' : GMesh}

theorem heL (h : Agree m m') (i : ℕ) : m'.heL i ↔ m.heL i := by
  unfold GMesh.heL
  rw [h.fills.1]
  exact and_congr_right (fun hi => by rw [h.next i hi])

theorem vL (h : Agree m m') (i : ℕ) : m'.vL i ↔ m.vL i := by
  unfold GMesh.vL
  rw [h.fills.2.1]
  exact and_congr_right (fun hi => by rw [h.vh i hi])

theorem eL (h : Agree m m') (i : ℕ) : m'.eL i ↔ m.eL i := by
  unfold GMesh.eL
  rw [h.fills.2.2.1]
  exact and_congr_right (fun hi => by rw [h.eh i hi])

theorem fL (h : Agree m m') (i : ℕ) : m'.fL i ↔ m.fL i := by
  unfold GMesh.fL
  rw [h.fills.2.2.2]
  exact and_congr_right (fun hi => by rw [h.fh i hi])

theorem nx (h : Agree m m') {i : ℕ} (hi : m.heL i) : m'.heNext i = m.heNext i := h.next i hi.1

theorem tip (h : Agree m m') (hv : m.Valid) {i : ℕ} (hi : m.heL i) : m'.tip i = m.tip i := by
  show m'.heVertex (m'.heNext i) = m.heVertex (m.heNext i)
  rw [h.nx hi, h.vert _ (hv.next_live i hi)]

end Agree

theorem load_agree {m : GMesh} (hv : m.Valid) (hs : m.Small) : Agree m (load m.save) := by
  have hI : (2 : ℕ) ^ 32 < INV := by decide
  obtain ⟨s1, s2, s3, s4⟩ := hs
  have key : ∀ (a : ℕ → ℕ) (n i : ℕ), i < n → (a i = INV ∨ a i < 2 ^ 32 - 1) →
      Mesh.vec ((slice a 0 n).map fromSmall) i = a i := by
    intro a n i hi h
    rw [vec_slice hi, Nat.zero_add, fromSmall_toSmall h]
  have hF : (slice m.fHalfedge 0 m.nFFill).map fromSmall ++ (slice m.fHalfedge m.nFCap 0).map fromSmall =
      (slice m.fHalfedge 0 m.nFFill).map fromSmall := List.append_nil _
  refine ⟨⟨?_, ?_, ?_, ?_⟩, ?_, ?_, ?_, ?_, ?_, ?_, ?_, ?_, ?_⟩
  · show ((slice m.heNext 0 m.nHeFill).map fromSmall).length = _
    rw [List.length_map, slice_length]
  · show ((slice m.vHalfedge 0 m.nVFill).map fromSmall).length = _
    rw [List.length_map, slice_length]
  · show ((slice m.eHalfedge 0 m.nEFill).map fromSmall).length = _
    rw [List.length_map, slice_length]
  · show ((slice m.fHalfedge 0 m.nFFill).map fromSmall ++ (slice m.fHalfedge m.nFCap 0).map fromSmall).length - 0 = _
    rw [hF, List.length_map, slice_length, Nat.sub_zero]
  · intro i hi
    refine key m.heNext _ i hi ?_
    by_cases q : m.heNext i = INV
    · exact .inl q
    · have := (hv.next_live i ⟨hi, q⟩).1
      exact .inr (by omega)
  · intro i hi
    have := (hv.vertex_live i hi).1
    exact key m.heVertex _ i hi.1 (.inr (by omega))
  · intro i hi
    have := (hv.face_live i hi).1
    exact key m.heFace _ i hi.1 (.inr (by omega))
  · intro i hi
    have := (hv.sib_live i hi).1
    exact key m.heSibling _ i hi.1 (.inr (by omega))
  · intro i hi
    have := (hv.edge_live i hi).1
    exact key m.heEdge _ i hi.1 (.inr (by omega))
  · intro i hi
    show ((List.range m.nHeFill).map m.heOrient).getD i false = _
    rw [List.getD_eq_getElem?_getD]
    simp [hi.1]
  · intro v hi
    refine key m.vHalfedge _ v hi ?_
    by_cases q : m.vHalfedge v = INV
    · exact .inl q
    · have := (hv.v_he v ⟨hi, q⟩).1.1
      exact .inr (by omega)
  · intro v hi
    refine key m.eHalfedge _ v hi ?_
    by_cases q : m.eHalfedge v = INV
    · exact .inl q
    · have := (hv.e_he v ⟨hi, q⟩).1.1
      exact .inr (by omega)
  · intro v hi
    show Mesh.vec ((slice m.fHalfedge 0 m.nFFill).map fromSmall ++ (slice m.fHalfedge m.nFCap 0).map fromSmall) v = _
    rw [hF]
    refine key m.fHalfedge _ v hi ?_
    by_cases q : m.fHalfedge v = INV
    · exact .inl q
    · have := (hv.f_he v ⟨hi, q⟩).1.1
      exact .inr (by omega)

theorem load_counts {m : GMesh} (hv : m.Valid) (hs : m.Small) :
    (load m.save).nHe = m.nHe ∧ (load m.save).nV = m.nV ∧ (load m.save).nE = m.nE ∧ (load m.save).nF = m.nF ∧
    (load m.save).nInt = m.nHe := by
  have A := load_agree hv hs
  obtain ⟨f1, f2, f3, f4⟩ := A.fills
  refine ⟨?_, ?_, ?_, ?_, ?_⟩
  · show (load m.save).nHeFill - Nat.count (fun i => (load m.save).heNext i = INV) (load m.save).nHeFill = _
    rw [f1, hv.cnt_he, count_alive A.next]
  · show (load m.save).nVFill - Nat.count (fun i => (load m.save).vHalfedge i = INV) (load m.save).nVFill = _
    rw [f2, hv.cnt_v, count_alive A.vh]
  · show (load m.save).nEFill - Nat.count (fun i => (load m.save).eHalfedge i = INV) (load m.save).nEFill = _
    rw [f3, hv.cnt_e, count_alive A.eh]
  · show (load m.save).nFFill - Nat.count (fun i => (load m.save).fHalfedge i = INV) (load m.save).nFFill = _
    rw [f4, hv.cnt_f, count_alive A.fh]
  · show ((List.range (load m.save).nHeFill).filter (fun i => decide ((load m.save).heNext i ≠ INV ∧
      ¬ (load m.save).nFFill ≤ (load m.save).heFace i))).length = _
    rw [f1, f4, hv.cnt_he]
    refine length_filter_count _ _ (fun i hi => ?_)
    rw [decide_eq_true_eq, A.next i hi]
    refine ⟨fun h => h.1, fun h => ⟨h, ?_⟩⟩
    rw [A.face i ⟨hi, h⟩]
    have := (hv.face_live i ⟨hi, h⟩).1
    omega

theorem load_valid {m : GMesh} (hv : m.Valid) (hs : m.Small) : (load m.save).Valid := by
  have A := load_agree hv hs
  obtain ⟨f1, f2, f3, f4⟩ := A.fills
  obtain ⟨c1, c2, c3, c4, -⟩ := load_counts hv hs
  have hI : (2 : ℕ) ^ 32 < INV := by decide
  obtain ⟨s1, s2, s3, s4⟩ := hs
  have e1 : (load m.save).nHeCap = (load m.save).nHeFill := rfl
  have e2 : (load m.save).nVCap = (load m.save).nVFill := rfl
  have e3 : (load m.save).nECap = (load m.save).nEFill := rfl
  have e4 : (load m.save).nFCap = (load m.save).nFFill := rfl
  have r1 : ∃ R : Ring, (load m.save).rin = R.init (fun h => (load m.save).heNext h == INV)
    (fun v => (load m.save).vHalfedge v == INV) (load m.save).tip (load m.save).nHeFill (load m.save).nVFill := ⟨_, rfl⟩
  have r2 : ∃ R : Ring, (load m.save).rout = R.init (fun h => (load m.save).heNext h == INV)
    (fun v => (load m.save).vHalfedge v == INV) (load m.save).heVertex (load m.save).nHeFill (load m.save).nVFill := ⟨_, rfl⟩
  generalize load m.save = m' at A f1 f2 f3 f4 c1 c2 c3 c4 e1 e2 e3 e4 r1 r2 ⊢
  have dead : ∀ h, (h < m'.nHeFill ∧ (m'.heNext h == INV) = false) ↔ m'.heL h := fun h => by
    rw [beq_eq_false_iff_ne]; rfl
  have vdead : ∀ v, (v < m'.nVFill ∧ (m'.vHalfedge v == INV) = false) ↔ m'.vL v := fun v => by
    rw [beq_eq_false_iff_ne]; rfl
  have vl : ∀ i, m'.heL i → m'.vL (m'.heVertex i) := fun i hi => by
    rw [A.heL] at hi
    rw [A.vert i hi, A.vL]
    exact hv.vertex_live i hi
  have nl : ∀ i, m'.heL i → m'.heL (m'.heNext i) := fun i hi => by
    rw [A.heL] at hi
    rw [A.nx hi, A.heL]
    exact hv.next_live i hi
  exact {
    he_cap := ⟨by omega, by omega⟩
    v_cap := ⟨by omega, by omega⟩
    e_cap := ⟨by omega, by omega⟩
    f_cap := ⟨by omega, by omega⟩
    next_live := nl
    sib_live := fun i hi => by
      rw [A.heL] at hi
      rw [A.sib i hi, A.heL]
      exact hv.sib_live i hi
    vertex_live := vl
    face_live := fun i hi => by
      rw [A.heL] at hi
      rw [A.face i hi, A.fL]
      exact hv.face_live i hi
    edge_live := fun i hi => by
      rw [A.heL] at hi
      rw [A.edge i hi, A.eL]
      exact hv.edge_live i hi
    face_iff := fun i j hi hj => by
      rw [A.heL] at hi hj
      rw [A.face i hi, A.face j hj, orb_agree hv.next_live (fun i hi => A.nx hi) hi]
      exact hv.face_iff i j hi hj
    edge_iff := fun i j hi hj => by
      rw [A.heL] at hi hj
      rw [A.edge i hi, A.edge j hj, orb_agree hv.sib_live A.sib hi]
      exact hv.edge_iff i j hi hj
    v_he := fun v h => by
      rw [A.vL] at h
      obtain ⟨a, b⟩ := hv.v_he v h
      rw [A.vh v h.1, A.heL, A.vert _ a]
      exact ⟨a, b⟩
    f_he := fun v h => by
      rw [A.fL] at h
      obtain ⟨a, b⟩ := hv.f_he v h
      rw [A.fh v h.1, A.heL, A.face _ a]
      exact ⟨a, b⟩
    e_he := fun v h => by
      rw [A.eL] at h
      obtain ⟨a, b⟩ := hv.e_he v h
      rw [A.eh v h.1, A.heL, A.edge _ a]
      exact ⟨a, b⟩
    orient := fun i j hi hj h => by
      rw [A.heL] at hi hj
      rw [A.edge i hi, A.edge j hj] at h
      have := hv.orient i j hi hj h
      unfold aligned at this ⊢
      rw [A.orient i hi, A.orient j hj, A.vert i hi, A.vert j hj, A.tip hv hi, A.tip hv hj]
      exact this
    in_ring := by
      obtain ⟨R, e⟩ := r1
      rw [e]
      refine (Ring.C25_init R (by omega) ?_ ?_).cast ?_ ?_
      · exact fun h a b => (vdead _).2 (vl _ (nl _ ((dead h).1 ⟨a, b⟩)))
      · intro v a b
        have h := (A.vL v).1 ((vdead v).1 ⟨a, b⟩)
        obtain ⟨c, d⟩ := hv.v_he v h
        obtain ⟨p, p1, p2⟩ := hv.faces.pred (fKey_some.2 ⟨c, rfl⟩)
        obtain ⟨p1, -⟩ := fKey_some.1 p1
        have q := (dead p).2 ((A.heL p).2 p1)
        refine ⟨p, q.1, q.2, ?_⟩
        rw [A.tip hv p1]
        show m.heVertex (m.heNext p) = v
        rw [p2, d]
      · funext h
        by_cases l : m'.heL h
        · rw [if_pos l, if_pos ((dead h).2 l)]
        · rw [if_neg l, if_neg (fun x => l ((dead h).1 x))]
      · funext v
        exact propext (vdead v)
    out_ring := by
      obtain ⟨R, e⟩ := r2
      rw [e]
      refine (Ring.C25_init R (by omega) ?_ ?_).cast ?_ ?_
      · exact fun h a b => (vdead _).2 (vl _ ((dead h).1 ⟨a, b⟩))
      · intro v a b
        have h := (A.vL v).1 ((vdead v).1 ⟨a, b⟩)
        obtain ⟨c, d⟩ := hv.v_he v h
        have q := (dead _).2 ((A.heL _).2 c)
        exact ⟨_, q.1, q.2, by rw [A.vert _ c]; exact d⟩
      · funext h
        by_cases l : m'.heL h
        · rw [if_pos l, if_pos ((dead h).2 l)]
        · rw [if_neg l, if_neg (fun x => l ((dead h).1 x))]
      · funext v
        exact propext (vdead v)
    cnt_he := by
      rw [c1, f1, hv.cnt_he]
      exact count_congr (fun i hi => by rw [A.next i hi])
    cnt_e := by
      rw [c3, f3, hv.cnt_e]
      exact count_congr (fun i hi => by rw [A.eh i hi])
    cnt_v := by
      rw [c2, f2, hv.cnt_v]
      exact count_congr (fun i hi => by rw [A.vh i hi])
    cnt_f := by
      rw [c4, f4, hv.cnt_f]
      exact count_congr (fun i hi => by rw [A.fh i hi]) }

/-- **C36** for general meshes: a valid mesh, compressed or not, whose indices fit into 32 bits, comes back valid with the
same live elements, the same connectivity and the same counters; the properties on vertices, halfedges, edges and faces
come back unchanged, and those on corners if the counter of interior halfedges of the saved mesh is right. -/
theorem C36_general (m : GMesh) (hv : m.Valid) (hs : m.Small) :
    (load m.save).Valid ∧
    (∀ i, (load m.save).heL i ↔ m.heL i) ∧ (∀ v, (load m.save).vL v ↔ m.vL v) ∧
    (∀ e, (load m.save).eL e ↔ m.eL e) ∧ (∀ f, (load m.save).fL f ↔ m.fL f) ∧
    (∀ i, m.heL i → (load m.save).heNext i = m.heNext i ∧ (load m.save).heVertex i = m.heVertex i ∧
      (load m.save).heFace i = m.heFace i ∧ (load m.save).heSibling i = m.heSibling i ∧
      (load m.save).heEdge i = m.heEdge i ∧ (load m.save).heOrient i = m.heOrient i) ∧
    (∀ v, m.vL v → (load m.save).vHalfedge v = m.vHalfedge v) ∧
    (∀ e, m.eL e → (load m.save).eHalfedge e = m.eHalfedge e) ∧
    (∀ f, m.fL f → (load m.save).fHalfedge f = m.fHalfedge f) ∧
    ((load m.save).nHe = m.nHe ∧ (load m.save).nV = m.nV ∧ (load m.save).nE = m.nE ∧ (load m.save).nF = m.nF ∧
      (load m.save).nInt = m.nHe) ∧
    (∀ (T : Type) (data : ℕ → T) (d : T),
      (∃ raw c, putProp m.nV m.rangeVertices data = .ok raw ∧
        getProp (load m.save).nV (load m.save).rangeVertices raw d = .ok c ∧ ∀ v, m.vL v → c v = data v) ∧
      (∃ raw c, putProp m.nHe m.rangeHalfedges data = .ok raw ∧
        getProp (load m.save).nHe (load m.save).rangeHalfedges raw d = .ok c ∧ ∀ i, m.heL i → c i = data i) ∧
      (∃ raw c, putProp m.nE m.rangeEdges data = .ok raw ∧
        getProp (load m.save).nE (load m.save).rangeEdges raw d = .ok c ∧ ∀ e, m.eL e → c e = data e) ∧
      (∃ raw c, putProp m.nF m.rangeFaces data = .ok raw ∧
        getProp (load m.save).nF (load m.save).rangeFaces raw d = .ok c ∧ ∀ f, m.fL f → c f = data f) ∧
      (m.nInt = m.nHe → ∃ raw c, putProp m.nInt m.rangeInteriorHalfedges data = .ok raw ∧
        getProp (load m.save).nInt (load m.save).rangeInteriorHalfedges raw d = .ok c ∧ ∀ i, m.heL i → c i = data i)) := by
  have A := load_agree hv hs
  have C := load_counts hv hs
  obtain ⟨f1, f2, f3, f4⟩ := A.fills
  have flt : ∀ (p q : ℕ → Bool) (n : ℕ), (∀ i < n, p i = q i) → (List.range n).filter p = (List.range n).filter q := by
    intro p q n h
    exact List.filter_congr (fun i hi => h i (List.mem_range.1 hi))
  refine ⟨load_valid hv hs, A.heL, A.vL, A.eL, A.fL,
    fun i hi => ⟨A.nx hi, A.vert i hi, A.face i hi, A.sib i hi, A.edge i hi, A.orient i hi⟩,
    fun v h => A.vh v h.1, fun e h => A.eh e h.1, fun f h => A.fh f h.1, C, ?_⟩
  intro T data d
  refine ⟨?_, ?_, ?_, ?_, ?_⟩
  · obtain ⟨raw, c, h1, h2, h3⟩ := prop_trip (n := m.nV) (n' := (load m.save).nV) (ids' := (load m.save).rangeVertices)
      (rangeList_eq (fun v => decide (m.vHalfedge v ≠ INV)) m.nVFill) (by
        unfold rangeVertices
        rw [rangeList_eq, f2]
        exact congrArg _ (flt _ _ _ (fun i hi => by rw [A.vh i hi]))) (by
        rw [hv.cnt_v]; exact length_filter_count _ _ (fun i _ => by rw [decide_eq_true_eq])) C.2.1
      (List.nodup_range.filter _) data d
    exact ⟨raw, c, h1, h2, fun v hl => h3 v (List.mem_filter.2 ⟨List.mem_range.2 hl.1, by simpa using hl.2⟩)⟩
  · obtain ⟨raw, c, h1, h2, h3⟩ := prop_trip (n := m.nHe) (n' := (load m.save).nHe) (ids' := (load m.save).rangeHalfedges)
      (rangeList_eq (fun v => decide (m.heNext v ≠ INV)) m.nHeFill) (by
        unfold rangeHalfedges
        rw [rangeList_eq, f1]
        exact congrArg _ (flt _ _ _ (fun i hi => by rw [A.next i hi]))) (by
        rw [hv.cnt_he]; exact length_filter_count _ _ (fun i _ => by rw [decide_eq_true_eq])) C.1
      (List.nodup_range.filter _) data d
    exact ⟨raw, c, h1, h2, fun v hl => h3 v (List.mem_filter.2 ⟨List.mem_range.2 hl.1, by simpa using hl.2⟩)⟩
  · obtain ⟨raw, c, h1, h2, h3⟩ := prop_trip (n := m.nE) (n' := (load m.save).nE) (ids' := (load m.save).rangeEdges)
      (rangeList_eq (fun e => decide (m.eHalfedge e ≠ INV)) m.nEFill) (by
        unfold rangeEdges
        rw [rangeList_eq, f3]
        exact congrArg _ (flt _ _ _ (fun i hi => by rw [A.eh i hi]))) (by
        rw [hv.cnt_e]; exact length_filter_count _ _ (fun i _ => by rw [decide_eq_true_eq])) C.2.2.1
      (List.nodup_range.filter _) data d
    exact ⟨raw, c, h1, h2, fun v hl => h3 v (List.mem_filter.2 ⟨List.mem_range.2 hl.1, by simpa using hl.2⟩)⟩
  · obtain ⟨raw, c, h1, h2, h3⟩ := prop_trip (n := m.nF) (n' := (load m.save).nF) (ids' := (load m.save).rangeFaces)
      (rangeList_eq (fun f => decide (m.fHalfedge f ≠ INV)) m.nFFill) (by
        unfold rangeFaces
        rw [rangeList_eq, f4]
        exact congrArg _ (flt _ _ _ (fun i hi => by rw [A.fh i hi]))) (by
        rw [hv.cnt_f]; exact length_filter_count _ _ (fun i _ => by rw [decide_eq_true_eq])) C.2.2.2.1
      (List.nodup_range.filter _) data d
    exact ⟨raw, c, h1, h2, fun v hl => h3 v (List.mem_filter.2 ⟨List.mem_range.2 hl.1, by simpa using hl.2⟩)⟩
  · intro hn
    have int : ∀ i, m.heL i → ¬ m.nFFill ≤ m.heFace i := fun i h => Nat.not_le.2 (hv.face_live i h).1
    obtain ⟨raw, c, h1, h2, h3⟩ := prop_trip (n := m.nInt) (n' := (load m.save).nInt)
      (ids' := (load m.save).rangeInteriorHalfedges)
      (rangeList_eq (fun i => decide (m.heNext i ≠ INV ∧ ¬ m.nFFill ≤ m.heFace i)) m.nHeFill) (by
        unfold rangeInteriorHalfedges
        rw [rangeList_eq, f1]
        refine congrArg _ (flt _ _ _ (fun i hi => ?_))
        rw [decide_eq_decide, A.next i hi, f4]
        exact and_congr_right (fun h => by rw [A.face i ⟨hi, h⟩])) (by
        rw [hn, hv.cnt_he]
        refine length_filter_count _ _ (fun i hi => ?_)
        rw [decide_eq_true_eq]
        exact ⟨fun h => h.1, fun h => ⟨h, int i ⟨hi, h⟩⟩⟩) (by rw [C.2.2.2.2, hn])
      (List.nodup_range.filter _) data d
    exact ⟨raw, c, h1, h2, fun v hl => h3 v (List.mem_filter.2 ⟨List.mem_range.2 hl.1, by
      rw [decide_eq_true_eq]; exact ⟨hl.2, int v hl⟩⟩)⟩

/-- The size of a mesh, and what comes back for halfedge 4. -/
def richTest (r : Res GMesh) : Option (ℕ × ℕ × ℕ × ℕ × ℕ × ℕ × ℕ × ℕ) :=
  match r with
  | .error _ => none
  | .ok m => some (m.nHeFill, m.nVFill, m.nEFill, m.nFFill, m.nInt, m.nHe, (load m.save).heSibling 4, (load m.save).nE)

theorem book_rich : richTest (fromPolygons book bookOrder) = some (9, 5, 7, 3, 9, 9, 4, 7) := rfl

/-- Three triangles with a common edge meet the hypotheses of `C36_general`. -/
example : ∃ m, fromPolygons book bookOrder = .ok m ∧ m.Valid ∧ m.Small ∧ m.nInt = m.nHe ∧ m.nE = 7 := by
  obtain ⟨m, hm, hb⟩ := book_built
  have t := book_rich
  rw [hm] at t
  simp only [richTest, Option.some.injEq, Prod.mk.injEq] at t
  obtain ⟨t1, t2, t3, t4, t5, t6, -, t8⟩ := t
  have hs : m.Small := ⟨by omega, by omega, by omega, by omega⟩
  exact ⟨m, hm, hb.valid, hs, by omega, by rw [← (load_counts hb.valid hs).2.2.1, t8]⟩

end GC.GMesh
