import Verif.Props.Split
import Verif.Props.Triangulate
import Verif.Props.InsertFace
import Verif.Props.RemoveEdge

/-! # Property C15: histories of mutations -/

namespace GC
open Mesh

/-- A call of one of the mutating functions. -/
inductive Op where
  | flip (e : ℕ) (preventSelfEdges : Bool)
  | insertAlong (e : ℕ)
  | connect (heA heB : ℕ)
  | insertInFace (f : ℕ)
  | split (e : ℕ)
  | triangulate (f : ℕ)
  | removeEdge (e : ℕ)

/-- The mesh after the call. -/
def Op.run (m : Mesh) : Op → Res Mesh
  | .flip e p => (m.flip e p).map Prod.fst
  | .insertAlong e => (m.insertVertexAlongEdge e).map Prod.fst
  | .connect a b => (m.connectVertices a b).map Prod.fst
  | .insertInFace f => (m.insertVertex f).map Prod.fst
  | .split e => (m.splitEdgeTriangular e).map Prod.fst
  | .triangulate f => (m.triangulate f).map Prod.fst
  | .removeEdge e => (m.removeEdge e).map Prod.fst

/-- The arguments of the call are elements of the mesh, of the kind the documentation asks for
(`connectVertices` and `insertVertex` work in an interior face). -/
def Op.legal (m : Mesh) : Op → Prop
  | .flip e _ => m.heLive (2 * e)
  | .insertAlong e => m.heLive (2 * e)
  | .connect a b => m.heLive a ∧ m.heLive b ∧ ¬ m.ext a
  | .insertInFace f => m.fLive f ∧ f < m.nFFill
  | .split e => m.heLive (2 * e)
  | .triangulate f => m.fLive f
  | .removeEdge e => m.heLive (2 * e)

/-- Excludes the two defects of C04 and C07: an edge out of a vertex of degree one, and the split of an edge
that has the same triangle on both sides. -/
def Op.regular (m : Mesh) : Op → Prop
  | .insertAlong e => m.heNext (2 * e + 1) ≠ 2 * e
  | .split e => m.heFace (2 * e) ≠ m.heFace (2 * e + 1)
  | _ => True

/-- `Hist ok m ops m'`: the calls `ops`, each one `legal` and satisfying `ok` when it is made, lead from `m`
to `m'`. A call may throw; the mesh is then as before (all modelled throws, except the one excluded by
`Op.regular`, precede the first write). -/
inductive Hist (ok : Mesh → Op → Prop) : Mesh → List Op → Mesh → Prop
  | nil (m) : Hist ok m [] m
  | call {m m1 m2 op ops} : op.legal m → ok m op → op.run m = .ok m1 → Hist ok m1 ops m2 → Hist ok m (op :: ops) m2
  | refused {m m2 op ops} : op.legal m → ok m op → op.run m = .error .throw → Hist ok m ops m2 →
      Hist ok m (op :: ops) m2

theorem tri_iff {m : Mesh} (hv : m.Valid) {i : ℕ} (hi : m.heLive i) :
    m.fIsTriangle (m.heFace i) ↔ m.heNext (m.heNext (m.heNext i)) = i := by
  obtain ⟨l0, e0⟩ := hv.f_he _ (hv.face_live i hi)
  have o1 := (hv.face_iff _ _ l0 hi).1 e0
  have o2 := (hv.face_iff _ _ hi l0).1 e0.symm
  unfold fIsTriangle
  constructor
  · intro h
    refine o1.induct (fun x => m.heNext (m.heNext (m.heNext x)) = x) h.symm ?_
    intro z hz; rw [hz]
  · intro h
    refine (o2.induct (fun x => m.heNext (m.heNext (m.heNext x)) = x) h ?_).symm
    intro z hz; rw [hz]

/-- One legal, regular call on a valid mesh: it returns a valid mesh with the same Euler characteristic,
throws, or (on a mesh close to the index range) runs out of memory. It does not hang or access memory out of range. -/
theorem op_step (m : Mesh) (hv : m.Valid) (op : Op) (hl : op.legal m) (hr : op.regular m) :
    (op.run m = .error .oom ∧ m.nearLimit (m.nHeFill + 3)) ∨ op.run m = .error .throw ∨
    ∃ m', op.run m = .ok m' ∧ m'.Valid ∧ m'.eulerCharacteristic = m.eulerCharacteristic := by
  cases op with
  | flip e p =>
    obtain ⟨m', r, h, hv', c1, c2, c3, c4, c5, c6⟩ := C01_flip_valid m hv e hl p
    right; right
    refine ⟨m', by simp only [Op.run, h]; rfl, hv', by unfold eulerCharacteristic; rw [c1, c2, c3, c6]⟩
  | insertAlong e =>
    rcases C04_insertVertexAlongEdge_partial m hv e hl hr with ⟨h, lim⟩ | ⟨m', h, hv', c1, c2, c3, c4, _⟩
    · left; exact ⟨by simp only [Op.run, h]; rfl, lim.mono (by omega) (by omega) (by omega)⟩
    · right; right
      refine ⟨m', by simp only [Op.run, h]; rfl, hv', ?_⟩
      unfold eulerCharacteristic; rw [c1, c2, c3, c4]; push_cast; omega
  | connect a b =>
    obtain ⟨l1, l2, x⟩ := hl
    by_cases hb : m.heFace a ≠ m.heFace b ∨ a = b ∨ m.heNext a = b ∨ m.heNext b = a
    · right; left
      simp only [Op.run, C05_connectVertices_refused m hv a b l1 l2 hb]; rfl
    · push Not at hb
      obtain ⟨b1, b2, b3, b4⟩ := hb
      rcases C05_connectVertices m hv a b l1 l2 b1 (Valid.face_lt x) b2 b3 b4 with ⟨h, lim⟩ | ⟨m', h, hv', c1, c2, c3, c4, _⟩
      · left; exact ⟨by simp only [Op.run, h]; rfl, lim.mono (by omega) (by omega) (by omega)⟩
      · right; right
        refine ⟨m', by simp only [Op.run, h]; rfl, hv', ?_⟩
        unfold eulerCharacteristic; rw [c1, c2, c3, c4]; push_cast; omega
  | insertInFace f =>
    obtain ⟨hf, hint⟩ := hl
    obtain ⟨l, hl, hnd, hmem, k, hlk, -⟩ := hv.faceHalfedges_ok hf
    have hL : ∀ i, i ∈ l.toFinset ↔ m.heLive i ∧ m.heFace i = f := by intro i; rw [List.mem_toFinset, hmem]
    have hc : l.toFinset.card = k + 1 := by rw [List.toFinset_card_of_nodup hnd, hlk]; simp
    have hle : l.toFinset.card ≤ m.nHeFill := by
      have := Finset.card_le_card (s := l.toFinset) (t := Finset.range m.nHeFill)
        (fun i hi => Finset.mem_range.2 ((hL i).1 hi).1.1)
      rwa [Finset.card_range] at this
    rcases C06_insertVertex m hv f hf hint l.toFinset hL with ⟨h, lim⟩ | ⟨m', h, hv', c1, c2, c3, c4, _⟩
    · left; exact ⟨by simp only [Op.run, h]; rfl, lim.mono (by omega) (by omega) (by omega)⟩
    · right; right
      refine ⟨m', by simp only [Op.run, h]; rfl, hv', ?_⟩
      unfold eulerCharacteristic; rw [c1, c2, c3, c4, hc]; push_cast; omega
  | split e =>
    have tw : twin (2 * e) = 2 * e + 1 := twin_two_mul e
    have lB : m.heLive (2 * e + 1) := by rw [← tw]; exact hv.twin_live _ hl
    by_cases t1 : m.heNext (m.heNext (m.heNext (2 * e))) = 2 * e
    · by_cases t2 : m.ext (2 * e + 1) ∨ m.heNext (m.heNext (m.heNext (2 * e + 1))) = 2 * e + 1
      · rcases C07_splitEdgeTriangular_partial m hv e hl hr t1 t2 with ⟨h, lim⟩ | ⟨m', d, h, hv', hd, c1, c2, c3, c4, _⟩
        · left; exact ⟨by simp only [Op.run, h]; rfl, lim.mono (by omega) (by omega) (by omega)⟩
        · right; right
          refine ⟨m', by simp only [Op.run, h]; rfl, hv', ?_⟩
          unfold eulerCharacteristic; rw [c1, c2, c3, c4]; push_cast; omega
      · right; left
        have : m.splitEdgeTriangular e = .error .throw := by
          unfold splitEdgeTriangular
          rw [if_neg (not_not.2 ((tri_iff hv (i := eHalfedge e) hl).2 t1)), if_pos]
          intro h; apply t2
          rcases h with h | h
          · left
            unfold eIsBoundary heIsInterior faceIsBL eHalfedge at h
            rw [not_not, tw] at h; exact h
          · right; unfold eHalfedge at h; rw [tw] at h; exact (tri_iff hv lB).1 h
        simp only [Op.run, this]; rfl
    · right; left
      have : m.splitEdgeTriangular e = .error .throw := by
        unfold splitEdgeTriangular
        rw [if_pos]; intro h; exact t1 ((tri_iff hv (i := eHalfedge e) hl).1 h)
      simp only [Op.run, this]; rfl
  | triangulate f =>
    by_cases hint : f < m.nFFill
    · obtain ⟨l, hl', hnd, hmem, k, hlk, -⟩ := hv.faceHalfedges_ok hl
      have hL : ∀ i, i ∈ l.toFinset ↔ m.heLive i ∧ m.heFace i = f := by intro i; rw [List.mem_toFinset, hmem]
      have hc : l.toFinset.card = k + 1 := by rw [List.toFinset_card_of_nodup hnd, hlk]; simp
      have hle : l.toFinset.card ≤ m.nHeFill := by
        have := Finset.card_le_card (s := l.toFinset) (t := Finset.range m.nHeFill)
          (fun i hi => Finset.mem_range.2 ((hL i).1 hi).1.1)
        rwa [Finset.card_range] at this
      by_cases h3 : 3 ≤ l.toFinset.card
      · rcases C08_triangulate m hv f hl hint l.toFinset hL h3 with ⟨h, lim⟩ | ⟨m', fs, h, hv', _, _, _, _, c1, c2, c3, c4, _⟩
        · left; exact ⟨by simp only [Op.run, h]; rfl, lim.mono (by omega) (by omega) (by omega)⟩
        · right; right
          refine ⟨m', by simp only [Op.run, h]; rfl, hv', ?_⟩
          unfold eulerCharacteristic; rw [c1, c2, c3, c4]; push_cast; omega
      · right; right
        have : ∃ fs, m.triangulate f = .ok (m, fs) := by
          unfold triangulate
          rw [if_neg (by unfold faceIsBL; omega)]
          split_ifs
          · exact ⟨_, rfl⟩
          · rw [hl']; simp only
            have hll : l.length = k + 1 := by rw [hlk]; simp
            have : (l.take (l.length - 1)).drop 2 = [] := by
              apply List.drop_eq_nil_of_le; rw [List.length_take]; omega
            rw [this]; exact ⟨_, rfl⟩
        obtain ⟨fs, h⟩ := this
        exact ⟨m, by simp only [Op.run, h]; rfl, hv, rfl⟩
    · right; left
      have : m.triangulate f = .error .throw := by
        unfold triangulate; rw [if_pos (by unfold faceIsBL; omega)]
      simp only [Op.run, this]; rfl
  | removeEdge e =>
    by_cases hb : m.ext (2 * e + 1)
    · right; left
      simp only [Op.run, C09_removeEdge_boundary m hv e hl hb]; rfl
    · right; right
      by_cases hf : m.heFace (2 * e) = m.heFace (2 * e + 1)
      · exact ⟨m, by simp only [Op.run, (C09_removeEdge m hv e hl hb).1 hf]; rfl, hv, rfl⟩
      · obtain ⟨m', h, hv', c1, c2, c3, c4, _⟩ := (C09_removeEdge m hv e hl hb).2 hf
        refine ⟨m', by simp only [Op.run, h]; rfl, hv', ?_⟩
        unfold eulerCharacteristic; rw [← c1, ← c2, c3, c4]; push_cast; omega

/-- **C15, partial.** Full claim: after *any* sequence of legal calls of flip, insertVertexAlongEdge,
connectVertices, insertVertex, splitEdgeTriangular, triangulate and removeEdge the mesh is valid and has the
Euler characteristic it started with. Proved for all sequences without the two kinds of calls excluded by
`Op.regular`; with them it is false (`C15_histories_fails`). -/
theorem C15_histories_partial (m m' : Mesh) (ops : List Op) (hv : m.Valid) (h : Hist Op.regular m ops m') :
    m'.Valid ∧ m'.eulerCharacteristic = m.eulerCharacteristic := by
  induction h with
  | nil m => exact ⟨hv, rfl⟩
  | @call m m1 m2 op ops hl hr hrun _ ih =>
    rcases op_step m hv op hl hr with ⟨e, -⟩ | e | ⟨m', e, hv', hx⟩
    · rw [hrun] at e; exact absurd e (by simp)
    · rw [hrun] at e; exact absurd e (by simp)
    · rw [hrun] at e; injection e with e; subst e
      obtain ⟨a, b⟩ := ih hv'
      exact ⟨a, b.trans hx⟩
  | refused _ _ _ _ ih => exact ih hv

/-- **C15, no crash.** After any such history, any further legal and regular call returns, throws or runs out
of memory; it never loops for ever and never accesses the arrays out of range. -/
theorem C15_histories_safe (m m' : Mesh) (ops : List Op) (hv : m.Valid) (h : Hist Op.regular m ops m')
    (op : Op) (hl : op.legal m') (hr : op.regular m') : op.run m' ≠ .error .hang ∧ op.run m' ≠ .error .ub ∧
      (op.run m' = .error .oom → m'.nearLimit (m'.nHeFill + 3)) := by
  rcases op_step m' (C15_histories_partial m m' ops hv h).1 op hl hr with ⟨e, l⟩ | e | ⟨m2, e, _⟩ <;> rw [e] <;> simp
  exact l

/-- **C15 fails** without the restriction: two legal calls from a valid mesh lead to an invalid one. -/
theorem C15_histories_fails : ∃ (m m' : Mesh) (ops : List Op), m.Valid ∧ Hist (fun _ _ => True) m ops m' ∧ ¬ m'.Valid := by
  obtain ⟨m', h⟩ : ∃ m', pillowFlipped.insertVertexAlongEdge 1 = .ok (m', 2) := ⟨_, rfl⟩
  refine ⟨pillow, m', [.flip 0 true, .insertAlong 1], pillow_valid, ?_, ?_⟩
  · refine .call (m1 := pillowFlipped) ?_ trivial ?_ (.call (m1 := m') ?_ trivial ?_ (.nil _))
    · show pillow.heLive _; decide +kernel
    · simp only [Op.run, pillowFlipped_reached]; rfl
    · show pillowFlipped.heLive _; decide +kernel
    · simp only [Op.run, h]; rfl
  · have : m' = (pillowFlipped.insertVertexAlongEdge 1).toOption.elim pillow Prod.fst := by rw [h]; rfl
    subst this
    intro hv
    exact absurd (hv.next_inj (i := 6) (j := 7) (by decide +kernel) (by decide +kernel) (by decide +kernel)) (by decide)

/-- A non-trivial regular history on the closed tetrahedron: a call without effect, a
refused call, remove an edge, insert a vertex. -/
example : ∃ m', Hist Op.regular tetra [.triangulate 0, .connect 0 0, .removeEdge 0, .insertAlong 1] m' ∧ m'.nE = 6 := by
  refine ⟨_, .call (by show tetra.fLive _; decide +kernel) trivial rfl
    (.refused (by refine ⟨?_, ?_, ?_⟩ <;> decide +kernel) trivial rfl
    (.call (by show tetra.heLive _; decide +kernel) trivial rfl
    (.call (by show heLive _ _; decide +kernel) (by show _ ≠ _; decide +kernel) rfl (.nil _)))), ?_⟩
  decide +kernel

end GC
