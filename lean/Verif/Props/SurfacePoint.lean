import Verif.SurfacePoint
import Verif.MeshCheck
import Mathlib.Tactic.Module
import Mathlib.Tactic.Linarith

/-! # C40, C48, C50: surface points and barycentric coordinates -/

namespace GC
open Mesh SPoint
variable {T : Type} [AddCommGroup T] [Module ℝ T] {m : Mesh}

/-- The element a surface point refers to exists, and is not a boundary loop. -/
def SPoint.On (m : Mesh) : SPoint → Prop
  | .vertex v => m.vLive v
  | .edge e _ => m.heLive (2 * e)
  | .face f _ => m.fLive f ∧ f < m.nFFill

/-- The element of the point is `f`, or lies on the border of `f`. -/
def SPoint.Touches (m : Mesh) (f : ℕ) : SPoint → Prop
  | .vertex v => ∃ h, m.heLive h ∧ m.heFace h = f ∧ m.heVertex h = v
  | .edge e _ => ∃ h, m.heLive h ∧ m.heFace h = f ∧ h / 2 = e
  | .face g _ => g = f

/-- Interpolation over a triangle, started at any of its halfedges. -/
theorem interp_rot (m : Mesh) (hv : m.Valid) {f h : ℕ} (hf : m.fLive f) (ht : m.fIsTriangle f) (hh : m.heLive h) (hhf : m.heFace h = f)
    (data : ℕ → T) (a b : ℝ) :
    (h = m.fHalfedge f → interpolate m data (.face f ⟨a, b, 0⟩) = a • data (m.heVertex h) + b • data (m.heVertex (m.heNext h))) ∧
    (h = m.heNext (m.fHalfedge f) → interpolate m data (.face f ⟨0, a, b⟩) = a • data (m.heVertex h) + b • data (m.heVertex (m.heNext h))) ∧
    (h = m.heNext (m.heNext (m.fHalfedge f)) → interpolate m data (.face f ⟨b, 0, a⟩) = a • data (m.heVertex h) + b • data (m.heVertex (m.heNext h))) := by
  refine ⟨?_, ?_, ?_⟩ <;> intro e <;> rw [e] <;> simp only [interpolate]
  · module
  · module
  · have : m.heNext (m.heNext (m.heNext (m.fHalfedge f))) = m.fHalfedge f := ht.symm
    rw [this]; module

theorem vHalfedge_int (hv : m.Valid) {v : ℕ} (h : m.vLive v) : ¬ m.ext (m.vHalfedge v) := by
  obtain ⟨hl, e⟩ := hv.v_he v h
  intro hx
  have := hv.bdy_first _ hl hx
  rw [e] at this
  exact hv.ext_twin hl hx this

/-- **C40, inSomeFace.** On a valid triangle mesh, `inSomeFace()` describes the same point in a face of the mesh. -/
theorem C40_inSomeFace (m : Mesh) (hv : m.Valid) (htri : ∀ f, m.fLive f → f < m.nFFill → m.fIsTriangle f) (p : SPoint) (hp : p.On m) :
    ∃ f c, p.inSomeFace m = .face f c ∧ m.fLive f ∧ f < m.nFFill ∧ p.Touches m f ∧
      ∀ (T : Type) [AddCommGroup T] [Module ℝ T] (data : ℕ → T), interpolate m data (p.inSomeFace m) = interpolate m data p := by
  have main : ∀ h, m.heLive h → ¬ m.ext h → ∀ a b : ℝ, ∃ f c,
      (if h = m.fHalfedge (m.heFace h) then SPoint.face (m.heFace h) ⟨a, b, 0⟩
        else if m.heNext h = m.fHalfedge (m.heFace h) then .face (m.heFace h) ⟨b, 0, a⟩ else .face (m.heFace h) ⟨0, a, b⟩) = .face f c ∧
      m.fLive f ∧ f < m.nFFill ∧ m.heFace h = f ∧
      ∀ (T : Type) [AddCommGroup T] [Module ℝ T] (data : ℕ → T), interpolate m data (.face f c) = a • data (m.heVertex h) + b • data (m.heVertex (m.heNext h)) := by
    intro h hl hx a b
    have hf := hv.face_live _ hl
    have hlt : m.heFace h < m.nFFill := Valid.face_lt hx
    have ht := htri _ hf hlt
    by_cases e1 : h = m.fHalfedge (m.heFace h)
    · exact ⟨_, _, if_pos e1, hf, hlt, rfl, fun T _ _ data => (interp_rot m hv hf ht hl rfl data a b).1 e1⟩
    · rw [if_neg e1]
      obtain ⟨d1, d2, d3⟩ := hv.tri_distinct hf ht
      by_cases e2 : m.heNext h = m.fHalfedge (m.heFace h)
      · refine ⟨_, _, if_pos e2, hf, hlt, rfl, fun T _ _ data => (interp_rot m hv hf ht hl rfl data a b).2.2 ?_⟩
        rcases hv.tri_cases hf ht hl rfl with h' | h' | h'
        · exact absurd h' e1
        · exact absurd ((congrArg m.heNext h').symm.trans e2) d2
        · exact h'
      · refine ⟨_, _, if_neg e2, hf, hlt, rfl, fun T _ _ data => (interp_rot m hv hf ht hl rfl data a b).2.1 ?_⟩
        rcases hv.tri_cases hf ht hl rfl with h' | h' | h'
        · exact absurd h' e1
        · exact h'
        · exfalso; apply e2; conv_lhs => rw [h']
          exact ht.symm
  match p, hp with
  | .vertex v, hp =>
    obtain ⟨hl, e⟩ := hv.v_he v hp
    obtain ⟨f, c, h1, h2, h3, h4, h5⟩ := main _ hl (vHalfedge_int hv hp) 1 0
    refine ⟨f, c, h1, h2, h3, ⟨_, hl, h4, e⟩, ?_⟩
    intro T _ _ data
    show interpolate m data (inSomeFace m (.vertex v)) = _
    simp only [inSomeFace]
    rw [h1, h5, e]
    simp [interpolate]
  | .edge e t, hp =>
    obtain ⟨f, c, h1, h2, h3, h4, h5⟩ := main (eHalfedge e) hp (hv.edge_int e hp) (1 - t) t
    refine ⟨f, c, h1, h2, h3, ⟨_, hp, h4, by omega⟩, ?_⟩
    intro T _ _ data
    show interpolate m data (inSomeFace m (.edge e t)) = _
    simp only [inSomeFace]
    rw [h1, h5, hv.vertex_next (i := eHalfedge e) hp]
    rfl
  | .face f c, hp => exact ⟨f, c, rfl, hp.1, hp.2, rfl, fun _ _ _ _ => rfl⟩

example : (SPoint.edge 1 (1 / 3)).On square ∧ square.Valid ∧ ∀ f, square.fLive f → f < square.nFFill → square.fIsTriangle f := by
  refine ⟨by show square.heLive _; decide +kernel, square_valid, ?_⟩
  intro f _ h
  have : f = 0 ∨ f = 1 := by change f < 2 at h; omega
  rcases this with rfl | rfl <;> decide +kernel

theorem onSide_interp (m : Mesh) (hv : m.Valid) {f h i : ℕ} (hf : m.fLive f) (ht : m.fIsTriangle f)
    (hi : i < 3) (hh : h = m.heNext^[i] (m.fHalfedge f)) (t : ℝ) :
    ∃ c, onSide f i t = .ok (.face f c) ∧ ∀ (T : Type) [AddCommGroup T] [Module ℝ T] (data : ℕ → T),
      interpolate m data (.face f c) = (1 - t) • data (m.heVertex h) + t • data (m.heVertex (m.heNext h)) := by
  obtain ⟨l0, l1, l2, f0, f1, f2⟩ := hv.tri_of hf ht
  have : i = 0 ∨ i = 1 ∨ i = 2 := by omega
  rcases this with rfl | rfl | rfl
  · refine ⟨⟨1 - t, t, 0⟩, by simp [onSide, V3.set], fun T _ _ data => ?_⟩
    exact (interp_rot m hv hf ht (by rw [hh]; exact l0) (by rw [hh]; exact f0) data _ _).1 hh
  · refine ⟨⟨0, 1 - t, t⟩, by simp [onSide, V3.set], fun T _ _ data => ?_⟩
    exact (interp_rot m hv hf ht (by rw [hh]; exact l1) (by rw [hh]; exact f1) data _ _).2.1 hh
  · refine ⟨⟨t, 0, 1 - t⟩, by simp [onSide, V3.set], fun T _ _ data => ?_⟩
    exact (interp_rot m hv hf ht (by rw [hh]; exact l2) (by rw [hh]; exact f2) data _ _).2.2 hh

theorem idxOf?_three {a b c x i : ℕ} (h : [a, b, c].idxOf? x = some i) : i < 3 ∧ [a, b, c][i]? = some x := by
  simp only [List.idxOf?_cons, List.idxOf?_nil] at h
  split at h
  · simp at h; subst h; simp_all
  · split at h
    · simp at h; subst h; simp_all
    · split at h
      · simp at h; subst h; simp_all
      · simp at h

theorem idxOf?_three_none {a b c x : ℕ} (h : [a, b, c].idxOf? x = none) : x ≠ a ∧ x ≠ b ∧ x ≠ c := by
  rw [List.idxOf?_eq_none_iff] at h
  simpa using h

/-- **C40, inFace.** For every triangle `f`, `inFace(f)` describes the same point in `f` if the point touches `f`, and
throws otherwise. -/
theorem C40_inFace (m : Mesh) (hv : m.Valid) (f : ℕ) (hf : m.fLive f) (ht : m.fIsTriangle f) (p : SPoint) :
    (p.Touches m f → (∀ e t, p = .edge e t → m.heLive (2 * e)) → ∃ c, p.inFace m f = .ok (.face f c) ∧
      ∀ (T : Type) [AddCommGroup T] [Module ℝ T] (data : ℕ → T), interpolate m data (.face f c) = interpolate m data p) ∧
    (¬ p.Touches m f → p.inFace m f = .error .throw) := by
  obtain ⟨l0, l1, l2, f0, f1, f2⟩ := hv.tri_of hf ht
  match p with
  | .vertex v =>
    refine ⟨?_, ?_⟩
    · rintro ⟨h, hl, hhf, hvx⟩ -
      simp only [inFace]
      by_cases e0 : m.heVertex (m.fHalfedge f) = v
      · rw [if_pos e0]
        exact ⟨_, rfl, fun T _ _ data => by simp [interpolate, e0]⟩
      rw [if_neg e0]
      by_cases e1 : m.heVertex (m.heNext (m.fHalfedge f)) = v
      · rw [if_pos e1]
        exact ⟨_, rfl, fun T _ _ data => by simp [interpolate, e1]⟩
      rw [if_neg e1]
      by_cases e2 : m.heVertex (m.heNext (m.heNext (m.fHalfedge f))) = v
      · rw [if_pos e2]
        exact ⟨_, rfl, fun T _ _ data => by simp [interpolate, e2]⟩
      exfalso
      rcases hv.tri_cases hf ht hl hhf with rfl | rfl | rfl <;> contradiction
    · intro hn
      simp only [inFace]
      rw [if_neg, if_neg, if_neg]
      · exact fun h => hn ⟨_, l2, f2, h⟩
      · exact fun h => hn ⟨_, l1, f1, h⟩
      · exact fun h => hn ⟨_, l0, f0, h⟩
  | .edge e t =>
    have hsome : ∀ {h i : ℕ}, [m.fHalfedge f, m.heNext (m.fHalfedge f), m.heNext (m.heNext (m.fHalfedge f))].idxOf? h = some i →
        i < 3 ∧ h = m.heNext^[i] (m.fHalfedge f) := by
      intro h i hi
      obtain ⟨h3, hg⟩ := idxOf?_three hi
      refine ⟨h3, ?_⟩
      have : i = 0 ∨ i = 1 ∨ i = 2 := by omega
      rcases this with rfl | rfl | rfl <;> simpa using hg.symm
    refine ⟨?_, ?_⟩
    · rintro ⟨h, hl, hhf, hhe⟩ hedge
      have hle : m.heLive (eHalfedge e) := hedge e t rfl
      have hlt : m.heLive (twin (eHalfedge e)) := hv.twin_live _ hle
      simp only [inFace, hv.tri_list hf ht]
      cases hi : [m.fHalfedge f, m.heNext (m.fHalfedge f), m.heNext (m.heNext (m.fHalfedge f))].idxOf? (eHalfedge e) with
      | some i =>
        obtain ⟨h3, hg⟩ := hsome hi
        obtain ⟨c, h1, h2⟩ := onSide_interp m hv hf ht h3 hg t
        refine ⟨c, h1, fun T _ _ data => ?_⟩
        rw [h2, hv.vertex_next hle]; rfl
      | none =>
        cases hj : [m.fHalfedge f, m.heNext (m.fHalfedge f), m.heNext (m.heNext (m.fHalfedge f))].idxOf? (twin (eHalfedge e)) with
        | some i =>
          obtain ⟨h3, hg⟩ := hsome hj
          obtain ⟨c, h1, h2⟩ := onSide_interp m hv hf ht h3 hg (1 - t)
          refine ⟨c, h1, fun T _ _ data => ?_⟩
          rw [h2, hv.vertex_next hlt, twin_twin]
          simp only [interpolate]
          module
        | none =>
          exfalso
          have n1 := idxOf?_three_none hi
          have n2 := idxOf?_three_none hj
          have hc : h = eHalfedge e ∨ h = twin (eHalfedge e) := by
            unfold eHalfedge; rw [twin_two_mul]; omega
          rcases hv.tri_cases hf ht hl hhf with h' | h' | h' <;> rcases hc with rfl | rfl <;> simp_all
    · intro hn
      simp only [inFace, hv.tri_list hf ht]
      have hno : ∀ h, h / 2 = e → [m.fHalfedge f, m.heNext (m.fHalfedge f), m.heNext (m.heNext (m.fHalfedge f))].idxOf? h = none := by
        intro h hh
        rw [List.idxOf?_eq_none_iff]
        intro hm
        simp only [List.mem_cons, List.not_mem_nil, or_false] at hm
        rcases hm with rfl | rfl | rfl
        · exact hn ⟨_, l0, f0, hh⟩
        · exact hn ⟨_, l1, f1, hh⟩
        · exact hn ⟨_, l2, f2, hh⟩
      rw [hno _ (by unfold eHalfedge; omega), hno _ (by rw [twin_div]; unfold eHalfedge; omega)]
  | .face g c =>
    refine ⟨?_, ?_⟩
    · rintro (rfl : g = f) -
      exact ⟨c, by simp [inFace], fun _ _ _ _ => rfl⟩
    · intro hn
      have : g ≠ f := hn
      simp [inFace, this]

example : (SPoint.edge 4 (1 / 3)).Touches square 1 ∧ ¬ (SPoint.edge 4 (1 / 3)).Touches square 0 ∧ square.fIsTriangle 1 := by
  refine ⟨⟨8, by decide +kernel⟩, ?_, by decide +kernel⟩
  rintro ⟨h, hl, h1, h2⟩
  have : h = 8 ∨ h = 9 := by omega
  rcases this with rfl | rfl <;> revert h1 <;> decide +kernel

/-- **C40, inEdge (refutation).** The two ends of the edge are exchanged: for the tail of the edge `inEdge` returns a
description of the tip, and for the tip (unless it is also the tail) a description of the tail. -/
theorem C40_inEdge_fails (m : Mesh) (hv : m.Valid) (e : ℕ) (hl : m.heLive (2 * e)) (data : ℕ → T) :
    (∃ q, (SPoint.vertex (m.heVertex (2 * e))).inEdge m e = .ok q ∧ interpolate m data q = data (m.tip (2 * e))) ∧
    (m.tip (2 * e) ≠ m.heVertex (2 * e) →
      ∃ q, (SPoint.vertex (m.tip (2 * e))).inEdge m e = .ok q ∧ interpolate m data q = data (m.heVertex (2 * e))) := by
  refine ⟨⟨.edge e 1, by simp [inEdge, eHalfedge], ?_⟩, fun h => ⟨.edge e 0, ?_, ?_⟩⟩
  · have := hv.vertex_next hl
    simp only [interpolate, eHalfedge, tip, this]; module
  · simp only [inEdge, eHalfedge, if_neg h, if_true]
  · simp only [interpolate, eHalfedge]; module

/-- C40 fails for `inEdge` on the tetrahedron: vertex 0 of edge 0 is turned into a description of vertex 1. -/
theorem C40_fails : ¬ ∀ (m : Mesh) (p q : SPoint) (e : ℕ) (data : ℕ → ℝ), m.Valid → p.On m → m.heLive (2 * e) → p.inEdge m e = .ok q →
    interpolate m data q = interpolate m data p := by
  intro h
  obtain ⟨q, h1, h2⟩ := (C40_inEdge_fails tetra tetra_valid 0 (by decide +kernel) (fun i => (i : ℝ))).1
  have := h tetra _ q 0 (fun i => (i : ℝ)) tetra_valid (by show tetra.vLive _; decide +kernel) (by decide +kernel) h1
  rw [h2] at this
  have e1 : tetra.tip (2 * 0) = 1 := by decide +kernel
  have e2 : tetra.heVertex (2 * 0) = 0 := by decide +kernel
  simp only [interpolate, e1, e2] at this
  norm_num at this

/-- **C40, inEdge (partial).** What holds: a point already on the edge is kept, every other edge or face point is
refused, and a vertex is accepted exactly if it is an end of the edge. Missing: for a vertex the description returned is
that of the other end (`C40_inEdge_fails`), so it denotes the same point only if both ends carry the same data. -/
theorem C40_inEdge_partial (m : Mesh) (e : ℕ) (p : SPoint) :
    (∀ t, p = .edge e t → p.inEdge m e = .ok p) ∧
    (∀ e' t, p = .edge e' t → e' ≠ e → p.inEdge m e = .error .throw) ∧
    (∀ f c, p = .face f c → p.inEdge m e = .error .throw) ∧
    (∀ v, p = .vertex v → ((∃ q, p.inEdge m e = .ok q) ↔ v = m.heVertex (2 * e) ∨ v = m.tip (2 * e))) := by
  refine ⟨?_, ?_, ?_, ?_⟩
  · rintro t rfl; simp [inEdge]
  · rintro e' t rfl h; simp [inEdge, h]
  · rintro f c rfl; rfl
  · rintro v rfl
    show (∃ q, inEdge m (.vertex v) e = .ok q) ↔ v = m.heVertex (eHalfedge e) ∨ v = m.tip (eHalfedge e)
    simp only [inEdge]
    by_cases h1 : v = m.heVertex (eHalfedge e)
    · rw [if_pos h1]; simp [h1]
    · rw [if_neg h1]
      by_cases h2 : v = m.tip (eHalfedge e)
      · rw [if_pos h2]; simp [h2]
      · rw [if_neg h2]; simp [h1, h2]

/-- **C40, halfedge constructor.** `SurfacePoint(he, t)` is the point at parameter `t` along the halfedge `he`, for both
halfedges of an edge. -/
theorem C40_ofHalfedge (m : Mesh) (hv : m.Valid) (he : ℕ) (hl : m.heLive he) (t : ℝ) (data : ℕ → T) :
    interpolate m data (ofHalfedge he t) = (1 - t) • data (m.heVertex he) + t • data (m.tip he) := by
  have h1 := hv.vertex_next hl
  unfold tip
  rw [h1]
  have hE : eHalfedge (heEdge he) = 2 * (he / 2) := rfl
  simp only [interpolate, ofHalfedge]
  rcases Nat.mod_two_eq_zero_or_one he with h | h
  · have e : he = eHalfedge (heEdge he) := by rw [hE]; omega
    rw [if_pos e, ← e]
  · have e : he = 2 * (he / 2) + 1 := by omega
    have e2 : twin he = 2 * (he / 2) := by conv_lhs => rw [e]
                                           exact twin_two_mul_add _
    rw [if_neg (by rw [hE]; omega), hE, twin_two_mul, ← e, e2]
    module

/-- **C40, nearestVertex.** The vertex returned is a corner of the element of the point, and carries at least the weight
of every other corner. -/
theorem C40_nearestVertex (m : Mesh) :
    (∀ v, nearestVertex m (.vertex v) = v) ∧
    (∀ e t, ∃ w : ℕ → ℝ, w 0 = 1 - t ∧ w 1 = t ∧ ∃ k < 2, nearestVertex m (.edge e t) = m.heVertex (twin^[k] (2 * e)) ∧ ∀ j < 2, w j ≤ w k) ∧
    (∀ f c, ∃ k < 3, nearestVertex m (.face f c) = m.heVertex (m.heNext^[k] (m.fHalfedge f)) ∧ ∀ j < 3, c.get j ≤ c.get k) := by
  refine ⟨fun _ => rfl, ?_, ?_⟩
  · intro e t
    refine ⟨fun i => if i = 0 then 1 - t else t, rfl, rfl, ?_⟩
    by_cases h : t < 1 / 2
    · refine ⟨0, by omega, by simp only [nearestVertex, if_pos h]; rfl, ?_⟩
      intro j hj
      have : j = 0 ∨ j = 1 := by omega
      rcases this with rfl | rfl <;> simp only [if_true, if_false, one_ne_zero]
      · linarith
      · linarith
    · refine ⟨1, by omega, by simp only [nearestVertex, if_neg h]; rfl, ?_⟩
      intro j hj
      have : j = 0 ∨ j = 1 := by omega
      rcases this with rfl | rfl <;> simp only [if_true, if_false, one_ne_zero]
      · linarith
      · linarith
  · intro f c
    simp only [nearestVertex]
    by_cases h1 : c.y ≤ c.x ∧ c.z ≤ c.x
    · refine ⟨0, by omega, by rw [if_pos h1]; rfl, ?_⟩
      intro j hj
      have : j = 0 ∨ j = 1 ∨ j = 2 := by omega
      rcases this with rfl | rfl | rfl
      · exact le_refl _
      · exact h1.1
      · exact h1.2
    · rw [if_neg h1]
      by_cases h2 : c.x ≤ c.y ∧ c.z ≤ c.y
      · refine ⟨1, by omega, by rw [if_pos h2]; rfl, ?_⟩
        intro j hj
        have : j = 0 ∨ j = 1 ∨ j = 2 := by omega
        rcases this with rfl | rfl | rfl
        · exact h2.1
        · exact le_refl _
        · exact h2.2
      · refine ⟨2, by omega, by rw [if_neg h2]; rfl, ?_⟩
        intro j hj
        have h3 : c.x ≤ c.z ∧ c.y ≤ c.z := by
          rcases le_total c.x c.y with h | h
          · have : c.y < c.z := not_le.1 (fun h' => h2 ⟨h, h'⟩)
            exact ⟨by linarith, this.le⟩
          · have : c.x < c.z := not_le.1 (fun h' => h1 ⟨h, h'⟩)
            exact ⟨this.le, by linarith⟩
        have : j = 0 ∨ j = 1 ∨ j = 2 := by omega
        rcases this with rfl | rfl | rfl
        · exact h3.1
        · exact h3.2
        · exact le_refl _

/-! ### C50 -/

/-- The point of a triangle with barycentric coordinates `b` relative to the halfedge `he`: weight `b_i` on the vertex of
`next^i(he)`. -/
def relPoint (m : Mesh) (data : ℕ → T) (he : ℕ) (b : V3) : T :=
  b.x • data (m.heVertex he) + b.y • data (m.heVertex (m.heNext he)) + b.z • data (m.heVertex (m.heNext (m.heNext he)))

/-- **C50.** For every halfedge of every triangle: both permutations succeed, they are inverse to each other, and they
relate coordinates relative to the halfedge with the coordinates of the same point relative to `face().halfedge()`. -/
theorem C50_permute (m : Mesh) (hv : m.Valid) (he : ℕ) (hl : m.heLive he) (ht : m.fIsTriangle (m.heFace he)) (b : V3) :
    (∃ c, Bary.toCanonical m he b = .ok c ∧ Bary.fromCanonical m he c = .ok b ∧
      ∀ (T : Type) [AddCommGroup T] [Module ℝ T] (data : ℕ → T), interpolate m data (.face (m.heFace he) c) = relPoint m data he b) ∧
    (∃ c, Bary.fromCanonical m he b = .ok c ∧ Bary.toCanonical m he c = .ok b ∧
      ∀ (T : Type) [AddCommGroup T] [Module ℝ T] (data : ℕ → T), interpolate m data (.face (m.heFace he) b) = relPoint m data he c) := by
  have hf := hv.face_live _ hl
  obtain ⟨d1, d2, d3⟩ := hv.tri_distinct hf ht
  have h3 : m.heNext (m.heNext (m.heNext (m.fHalfedge (m.heFace he)))) = m.fHalfedge (m.heFace he) := ht.symm
  obtain ⟨x, y, z⟩ := b
  rcases hv.tri_cases hf ht hl rfl with h | h | h
  · have hi : Bary.halfedgeIndex m he = .ok 0 := by simp [Bary.halfedgeIndex, h.symm]
    refine ⟨⟨⟨x, y, z⟩, ?_, ?_, ?_⟩, ⟨⟨x, y, z⟩, ?_, ?_, ?_⟩⟩
    · simp [Bary.toCanonical, hi, V3.set, V3.get]
    · simp [Bary.fromCanonical, hi, V3.set, V3.get]
    · intro T _ _ data; simp only [interpolate, relPoint]; rw [← h]
    · simp [Bary.fromCanonical, hi, V3.set, V3.get]
    · simp [Bary.toCanonical, hi, V3.set, V3.get]
    · intro T _ _ data; simp only [interpolate, relPoint]; rw [← h]
  · have hne : m.fHalfedge (m.heFace he) ≠ he := fun h' => d1 (h.symm.trans h'.symm)
    have hi : Bary.halfedgeIndex m he = .ok 1 := by simp only [Bary.halfedgeIndex, if_neg hne, if_pos h.symm]
    have e1 : m.heNext he = m.heNext (m.heNext (m.fHalfedge (m.heFace he))) := congrArg m.heNext h
    refine ⟨⟨⟨z, x, y⟩, ?_, ?_, ?_⟩, ⟨⟨y, z, x⟩, ?_, ?_, ?_⟩⟩
    · simp [Bary.toCanonical, hi, V3.set, V3.get]
    · simp [Bary.fromCanonical, hi, V3.set, V3.get]
    · intro T _ _ data; simp only [interpolate, relPoint]; rw [e1, h3, ← h]; module
    · simp [Bary.fromCanonical, hi, V3.set, V3.get]
    · simp [Bary.toCanonical, hi, V3.set, V3.get]
    · intro T _ _ data; simp only [interpolate, relPoint]; rw [e1, h3, ← h]; module
  · have hne : m.fHalfedge (m.heFace he) ≠ he := fun h' => d2 (h.symm.trans h'.symm)
    have hne2 : m.heNext (m.fHalfedge (m.heFace he)) ≠ he := fun h' => d3 (h.symm.trans h'.symm)
    have hi : Bary.halfedgeIndex m he = .ok 2 := by simp only [Bary.halfedgeIndex, if_neg hne, if_neg hne2, if_pos h.symm]
    have e1 : m.heNext he = m.fHalfedge (m.heFace he) := (congrArg m.heNext h).trans h3
    refine ⟨⟨⟨y, z, x⟩, ?_, ?_, ?_⟩, ⟨⟨z, x, y⟩, ?_, ?_, ?_⟩⟩
    · simp [Bary.toCanonical, hi, V3.set, V3.get]
    · simp [Bary.fromCanonical, hi, V3.set, V3.get]
    · intro T _ _ data; simp only [interpolate, relPoint]; rw [e1, ← h]; module
    · simp [Bary.fromCanonical, hi, V3.set, V3.get]
    · simp [Bary.toCanonical, hi, V3.set, V3.get]
    · intro T _ _ data; simp only [interpolate, relPoint]; rw [e1, ← h]; module

example : tetra.heLive 8 ∧ tetra.fIsTriangle (tetra.heFace 8) ∧ Bary.halfedgeIndex tetra 8 = .ok 1 := by
  refine ⟨by decide +kernel, by decide +kernel, by decide +kernel⟩

end GC
