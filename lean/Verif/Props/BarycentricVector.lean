import Verif.BarycentricVector
import Verif.Props.SurfacePoint
import Verif.Props.Nav
import Verif.Props.Bary
import Mathlib.Analysis.SpecialFunctions.Trigonometric.Basic

/-! # C41: barycentric vectors -/

namespace GC
open Mesh
variable {m : Mesh}

/-- The vector a barycentric vector denotes, for any data on the vertices: the difference it makes to interpolated data. -/
noncomputable def BVec.denote {T : Type} [AddCommGroup T] [Module ℝ T] (m : Mesh) (data : ℕ → T) : BVec → T
  | .vertex _ => 0
  | .edge e c => c.x • data (m.heVertex (2 * e)) + c.y • data (m.heVertex (2 * e + 1))
  | .face f c => c.x • data (m.heVertex (m.fHalfedge f)) + c.y • data (m.heVertex (m.heNext (m.fHalfedge f))) +
      c.z • data (m.heVertex (m.heNext (m.heNext (m.fHalfedge f))))

/-- The element of the vector exists and is not a boundary loop. -/
def BVec.On (m : Mesh) : BVec → Prop
  | .vertex v => m.vLive v
  | .edge e _ => m.heLive (2 * e)
  | .face f _ => m.fLive f ∧ f < m.nFFill

/-- The element of the vector is `f` or lies on its border. -/
def BVec.Touches (m : Mesh) (f : ℕ) : BVec → Prop
  | .vertex v => ∃ h, m.heLive h ∧ m.heFace h = f ∧ m.heVertex h = v
  | .edge e _ => ∃ h, m.heLive h ∧ m.heFace h = f ∧ h / 2 = e
  | .face g _ => g = f

/-- The element of the vector is `e` or an end of it. -/
def BVec.EndOf (m : Mesh) (e : ℕ) : BVec → Prop
  | .vertex v => v = m.heVertex (2 * e) ∨ v = m.heVertex (2 * e + 1)
  | .edge e' _ => e' = e
  | .face _ _ => False

/-- The coordinates sum to zero: the vector is a displacement. -/
def BVec.Balanced : BVec → Prop
  | .vertex _ => True
  | .edge _ c => c.x + c.y = 0
  | .face _ c => c.total = 0

/-- All faces of the mesh are triangles. -/
def TriMesh (m : Mesh) : Prop := ∀ f, m.fLive f → f < m.nFFill → m.fIsTriangle f

theorem square_tri : TriMesh square := by
  intro f _ h
  have : f = 0 ∨ f = 1 := by change f < 2 at h; omega
  rcases this with rfl | rfl <;> decide +kernel

theorem tetra_tri : TriMesh tetra := by
  intro f _ h
  have : f = 0 ∨ f = 1 ∨ f = 2 ∨ f = 3 := by change f < 4 at h; omega
  rcases this with rfl | rfl | rfl | rfl <;> decide +kernel

/-! ### The element searches -/

theorem firstM_spec {p : ℕ → Res Bool} {P : ℕ → Prop} (l : List ℕ) (h : ∀ a ∈ l, ∃ b, p a = .ok b ∧ (b = true ↔ P a)) :
    ∃ o, firstM p l = .ok o ∧ (∀ a, o = some a → a ∈ l ∧ P a) ∧ (o = none → ∀ a ∈ l, ¬ P a) := by
  induction l with
  | nil => exact ⟨none, rfl, by simp, by simp⟩
  | cons a l ih =>
    obtain ⟨b, hb, hP⟩ := h a (by simp)
    obtain ⟨o, h1, h2, h3⟩ := ih (fun x hx => h x (by simp [hx]))
    cases b with
    | true =>
      refine ⟨some a, by simp [firstM, hb], ?_, by simp⟩
      rintro a' ⟨⟩
      exact ⟨by simp, hP.1 rfl⟩
    | false =>
      refine ⟨o, by simp [firstM, hb, h1], ?_, ?_⟩
      · intro x hx
        exact ⟨by simp [(h2 x hx).1], (h2 x hx).2⟩
      · intro ho x hx
        simp only [List.mem_cons] at hx
        rcases hx with rfl | hx
        · intro hp; simpa using hP.2 hp
        · exact h3 ho x hx

theorem faceHasEdge_ok (hv : m.Valid) {f : ℕ} (hf : m.fLive f) (e : ℕ) :
    ∃ b, m.faceHasEdge f e = .ok b ∧ (b = true ↔ ∃ h, m.heLive h ∧ m.heFace h = f ∧ h / 2 = e) := by
  obtain ⟨l, h1, -, h2, -⟩ := C49_face_halfedges m hv f hf
  refine ⟨_, by rw [faceHasEdge, h1]; rfl, ?_⟩
  simp only [List.contains_iff_mem, List.mem_map, h2, heEdge]
  constructor
  · rintro ⟨h, ⟨a, b⟩, c⟩; exact ⟨h, a, b, c⟩
  · rintro ⟨h, a, b, c⟩; exact ⟨h, ⟨a, b⟩, c⟩

theorem faceHasVertex_ok (hv : m.Valid) {f : ℕ} (hf : m.fLive f) (v : ℕ) :
    ∃ b, m.faceHasVertex f v = .ok b ∧ (b = true ↔ ∃ h, m.heLive h ∧ m.heFace h = f ∧ m.heVertex h = v) := by
  obtain ⟨l, h1, -, h2, -, -, -, h3, -⟩ := C49_face_halfedges m hv f hf
  refine ⟨_, by rw [faceHasVertex, h3]; rfl, ?_⟩
  simp only [List.contains_iff_mem, List.mem_map, h2]
  constructor
  · rintro ⟨h, ⟨a, b⟩, c⟩; exact ⟨h, a, b, c⟩
  · rintro ⟨h, a, b, c⟩; exact ⟨h, ⟨a, b⟩, c⟩

theorem vertexFaces_ok (hv : m.Valid) {v : ℕ} (hvl : m.vLive v) :
    ∃ l, m.navVertexFaces v = .ok l ∧ ∀ f, f ∈ l ↔ f < m.nFFill ∧ ∃ h, m.heLive h ∧ m.heFace h = f ∧ m.heVertex h = v := by
  obtain ⟨l, -, -, h2, -, -, -, -, -, h3⟩ := C49_vertex_outgoing m hv v hvl
  refine ⟨_, h3, ?_⟩
  intro f
  simp only [List.mem_map, List.mem_filter, h2, decide_eq_true_eq]
  constructor
  · rintro ⟨h, ⟨⟨a, b⟩, c⟩, rfl⟩; exact ⟨c, h, a, rfl, b⟩
  · rintro ⟨c, h, a, rfl, b⟩; exact ⟨h, ⟨⟨a, b⟩, c⟩, rfl⟩

theorem live_pair (hv : m.Valid) {h : ℕ} (hl : m.heLive h) : m.heLive (2 * (h / 2)) ∧ m.heLive (2 * (h / 2) + 1) := by
  have := hv.twin_live _ hl
  rcases Nat.mod_two_eq_zero_or_one h with e | e
  · have e1 : h = 2 * (h / 2) := by omega
    have e2 : twin h = 2 * (h / 2) + 1 := by conv_lhs => rw [e1]
                                             exact twin_two_mul _
    rw [e2] at this; rw [← e1]; exact ⟨hl, by rwa [← e1] at this⟩
  · have e1 : h = 2 * (h / 2) + 1 := by omega
    have e2 : twin h = 2 * (h / 2) := by conv_lhs => rw [e1]
                                         exact twin_two_mul_add _
    rw [e2] at this; rw [← e1]; exact ⟨this, hl⟩

theorem edgeFaces_ok (hv : m.Valid) {e : ℕ} (hl : m.heLive (2 * e)) :
    ∃ l, m.navEdgeFaces e = .ok l ∧ ∀ f, f ∈ l ↔ f < m.nFFill ∧ ∃ h, m.heLive h ∧ m.heFace h = f ∧ h / 2 = e := by
  refine ⟨_, by rw [navEdgeFaces, C49_edge_interior m hv e hl]; rfl, ?_⟩
  have h0 : m.heFace (2 * e) < m.nFFill := by have := hv.edge_int e hl; unfold ext eHalfedge at this; omega
  have hl1 : m.heLive (2 * e + 1) := by have := (live_pair hv hl).2; rwa [show 2 * e / 2 = e by omega] at this
  intro f
  constructor
  · intro h
    split at h
    · simp only [List.map_cons, List.map_nil, List.mem_singleton] at h
      subst h; exact ⟨h0, 2 * e, hl, rfl, by omega⟩
    · simp only [List.map_cons, List.map_nil, List.mem_cons, List.not_mem_nil, or_false] at h
      rcases h with rfl | rfl
      · exact ⟨h0, 2 * e, hl, rfl, by omega⟩
      · exact ⟨by omega, 2 * e + 1, hl1, rfl, by omega⟩
  · rintro ⟨hf, h, hh, rfl, he⟩
    have : h = 2 * e ∨ h = 2 * e + 1 := by omega
    rcases this with rfl | rfl
    · split <;> simp
    · rw [if_neg (by omega)]; simp

theorem tip_eq (hv : m.Valid) {e : ℕ} (hl : m.heLive (2 * e)) : m.tip (2 * e) = m.heVertex (2 * e + 1) := by
  unfold tip; rw [hv.vertex_next hl, twin_two_mul]

theorem edgeVertices_iff (hv : m.Valid) {e : ℕ} (hl : m.heLive (2 * e)) (v : ℕ) :
    v ∈ m.edgeVertices e ↔ v = m.heVertex (2 * e) ∨ v = m.heVertex (2 * e + 1) := by
  show v ∈ [m.heVertex (2 * e), m.tip (2 * e)] ↔ _
  rw [tip_eq hv hl]; simp

/-- The search for an edge between two vertices. -/
theorem find_edge (hv : m.Valid) {v w : ℕ} (hvl : m.vLive v) :
    ∃ l, m.navOutgoing v = .ok l ∧
      (∀ e, (l.find? (fun he => m.tip he == w)).map heEdge = some e → m.heLive (2 * e) ∧
        ((v = m.heVertex (2 * e) ∧ w = m.heVertex (2 * e + 1)) ∨ (v = m.heVertex (2 * e + 1) ∧ w = m.heVertex (2 * e)))) ∧
      ((l.find? (fun he => m.tip he == w)).map heEdge = none → ∀ e, m.heLive (2 * e) →
        ¬ ((v = m.heVertex (2 * e) ∧ w = m.heVertex (2 * e + 1)) ∨ (v = m.heVertex (2 * e + 1) ∧ w = m.heVertex (2 * e)))) := by
  obtain ⟨l, h1, -, h2, -⟩ := C49_vertex_outgoing m hv v hvl
  refine ⟨l, h1, ?_, ?_⟩
  · intro e he
    rw [Option.map_eq_some_iff] at he
    obtain ⟨h, hf, rfl⟩ := he
    have hm := List.mem_of_find?_eq_some hf
    have hp := List.find?_some hf
    simp only [beq_iff_eq] at hp
    obtain ⟨hl, hvx⟩ := (h2 h).1 hm
    have hp' : m.heVertex (twin h) = w := by rw [← hv.vertex_next hl]; exact hp
    refine ⟨(live_pair hv hl).1, ?_⟩
    show (v = m.heVertex (2 * (h / 2)) ∧ w = m.heVertex (2 * (h / 2) + 1)) ∨ _
    rcases Nat.mod_two_eq_zero_or_one h with e | e
    · left
      have e1 : h = 2 * (h / 2) := by omega
      have e2 : twin h = 2 * (h / 2) + 1 := by conv_lhs => rw [e1]
                                               exact twin_two_mul _
      rw [e2] at hp'; exact ⟨by rw [← e1]; exact hvx.symm, hp'.symm⟩
    · right
      have e1 : h = 2 * (h / 2) + 1 := by omega
      have e2 : twin h = 2 * (h / 2) := by conv_lhs => rw [e1]
                                           exact twin_two_mul_add _
      rw [e2] at hp'; exact ⟨by unfold heEdge; rw [← e1]; exact hvx.symm, hp'.symm⟩
  · intro hn e hl hc
    rw [Option.map_eq_none_iff, List.find?_eq_none] at hn
    have hl1 : m.heLive (2 * e + 1) := by have := (live_pair hv hl).2; rwa [show 2 * e / 2 = e by omega] at this
    rcases hc with ⟨a, b⟩ | ⟨a, b⟩
    · refine hn (2 * e) ((h2 _).2 ⟨hl, a.symm⟩) ?_
      simp only [beq_iff_eq]; rw [tip_eq hv hl, b]
    · refine hn (2 * e + 1) ((h2 _).2 ⟨hl1, a.symm⟩) ?_
      simp only [beq_iff_eq]; unfold tip; rw [hv.vertex_next hl1, twin_two_mul_add, b]

theorem BVec.sharedEdge_ok (hv : m.Valid) (u w : BVec) (hu : u.On m) (hw : w.On m) :
    ∃ o, sharedEdge m u w = .ok o ∧ (∀ e, o = some e → m.heLive (2 * e) ∧ u.EndOf m e ∧ w.EndOf m e) := by
  match u, w, hu, hw with
  | .edge e _, .edge e' _, hu, hw =>
    refine ⟨_, rfl, ?_⟩
    intro x hx
    split at hx <;> simp at hx
    subst hx; exact ⟨hu, rfl, by show e' = e; symm; assumption⟩
  | .edge e _, .vertex v, hu, hw =>
    refine ⟨_, rfl, ?_⟩
    intro x hx
    split at hx <;> simp at hx
    subst hx; exact ⟨hu, rfl, (edgeVertices_iff hv hu v).1 (by assumption)⟩
  | .vertex v, .edge e _, hu, hw =>
    refine ⟨_, rfl, ?_⟩
    intro x hx
    split at hx <;> simp at hx
    subst hx; exact ⟨hw, (edgeVertices_iff hv hw v).1 (by assumption), rfl⟩
  | .vertex v, .vertex w, hu, hw =>
    obtain ⟨l, h1, h2, -⟩ := find_edge (w := w) hv hu
    refine ⟨_, by simp only [sharedEdge, h1]; rfl, ?_⟩
    intro x hx
    obtain ⟨h3, h4⟩ := h2 x hx
    refine ⟨h3, ?_⟩
    rcases h4 with ⟨a, b⟩ | ⟨a, b⟩
    · exact ⟨Or.inl a, Or.inr b⟩
    · exact ⟨Or.inr a, Or.inl b⟩
  | .face _ _, .face _ _, _, _ => exact ⟨none, rfl, by simp⟩
  | .face _ _, .edge _ _, _, _ => exact ⟨none, rfl, by simp⟩
  | .face _ _, .vertex _, _, _ => exact ⟨none, rfl, by simp⟩
  | .edge _ _, .face _ _, _, _ => exact ⟨none, rfl, by simp⟩
  | .vertex _, .face _ _, _, _ => exact ⟨none, rfl, by simp⟩

theorem BVec.sharedFace_ok (hv : m.Valid) (u w : BVec) (hu : u.On m) (hw : w.On m) :
    ∃ o, sharedFace m u w = .ok o ∧ (∀ f, o = some f → m.fLive f ∧ f < m.nFFill ∧ u.Touches m f ∧ w.Touches m f) ∧
      (o = none → ∀ f, f < m.nFFill → ¬ (u.Touches m f ∧ w.Touches m f)) := by
  match u, w, hu, hw with
  | .face f _, .face g _, hu, hw =>
    refine ⟨_, rfl, ?_, ?_⟩
    · intro x hx
      split at hx <;> simp at hx
      subst hx; exact ⟨hu.1, hu.2, rfl, by show g = f; symm; assumption⟩
    · intro ho x _ ⟨(a : f = x), (b : g = x)⟩
      rw [if_pos (a.trans b.symm)] at ho; simp at ho
  | .face f _, .edge e _, hu, hw =>
    obtain ⟨o, h1, h2, h3⟩ := firstM_spec (p := fun f => m.faceHasEdge f e) (P := fun f => ∃ h, m.heLive h ∧ m.heFace h = f ∧ h / 2 = e) [f] (by
      intro a ha; simp only [List.mem_singleton] at ha; subst ha; exact faceHasEdge_ok hv hu.1 e)
    refine ⟨o, h1, ?_, ?_⟩
    · intro x hx
      obtain ⟨ha, hb⟩ := h2 x hx
      simp only [List.mem_singleton] at ha; subst ha
      exact ⟨hu.1, hu.2, rfl, hb⟩
    · rintro ho x - ⟨rfl, b⟩
      exact h3 ho _ (by simp) b
  | .face f _, .vertex v, hu, hw =>
    obtain ⟨o, h1, h2, h3⟩ := firstM_spec (p := fun f => m.faceHasVertex f v) (P := fun f => ∃ h, m.heLive h ∧ m.heFace h = f ∧ m.heVertex h = v) [f] (by
      intro a ha; simp only [List.mem_singleton] at ha; subst ha; exact faceHasVertex_ok hv hu.1 v)
    refine ⟨o, h1, ?_, ?_⟩
    · intro x hx
      obtain ⟨ha, hb⟩ := h2 x hx
      simp only [List.mem_singleton] at ha; subst ha
      exact ⟨hu.1, hu.2, rfl, hb⟩
    · rintro ho x - ⟨rfl, b⟩
      exact h3 ho _ (by simp) b
  | .edge e _, .face f _, hu, hw =>
    obtain ⟨o, h1, h2, h3⟩ := firstM_spec (p := fun f => m.faceHasEdge f e) (P := fun f => ∃ h, m.heLive h ∧ m.heFace h = f ∧ h / 2 = e) [f] (by
      intro a ha; simp only [List.mem_singleton] at ha; subst ha; exact faceHasEdge_ok hv hw.1 e)
    refine ⟨o, h1, ?_, ?_⟩
    · intro x hx
      obtain ⟨ha, hb⟩ := h2 x hx
      simp only [List.mem_singleton] at ha; subst ha
      exact ⟨hw.1, hw.2, hb, rfl⟩
    · rintro ho x - ⟨b, rfl⟩
      exact h3 ho _ (by simp) b
  | .vertex v, .face f _, hu, hw =>
    obtain ⟨o, h1, h2, h3⟩ := firstM_spec (p := fun f => m.faceHasVertex f v) (P := fun f => ∃ h, m.heLive h ∧ m.heFace h = f ∧ m.heVertex h = v) [f] (by
      intro a ha; simp only [List.mem_singleton] at ha; subst ha; exact faceHasVertex_ok hv hw.1 v)
    refine ⟨o, h1, ?_, ?_⟩
    · intro x hx
      obtain ⟨ha, hb⟩ := h2 x hx
      simp only [List.mem_singleton] at ha; subst ha
      exact ⟨hw.1, hw.2, hb, rfl⟩
    · rintro ho x - ⟨b, rfl⟩
      exact h3 ho _ (by simp) b
  | .edge e _, .edge e' _, hu, hw =>
    obtain ⟨l, g1, g2⟩ := edgeFaces_ok hv hu
    have lv : ∀ a ∈ l, m.fLive a := by
      intro a ha; obtain ⟨-, h, hl, rfl, -⟩ := (g2 a).1 ha; exact hv.face_live _ hl
    obtain ⟨o, h1, h2, h3⟩ := firstM_spec (p := fun f => m.faceHasEdge f e') l (fun a ha => faceHasEdge_ok hv (lv a ha) e')
    refine ⟨o, by simp only [sharedFace, g1, h1], ?_, ?_⟩
    · intro x hx
      obtain ⟨ha, hb⟩ := h2 x hx
      exact ⟨lv x ha, ((g2 x).1 ha).1, ((g2 x).1 ha).2, hb⟩
    · rintro ho x hx ⟨a, b⟩
      exact h3 ho _ ((g2 x).2 ⟨hx, a⟩) b
  | .edge e _, .vertex v, hu, hw =>
    obtain ⟨l, g1, g2⟩ := edgeFaces_ok hv hu
    have lv : ∀ a ∈ l, m.fLive a := by
      intro a ha; obtain ⟨-, h, hl, rfl, -⟩ := (g2 a).1 ha; exact hv.face_live _ hl
    obtain ⟨o, h1, h2, h3⟩ := firstM_spec (p := fun f => m.faceHasVertex f v) l (fun a ha => faceHasVertex_ok hv (lv a ha) v)
    refine ⟨o, by simp only [sharedFace, g1, h1], ?_, ?_⟩
    · intro x hx
      obtain ⟨ha, hb⟩ := h2 x hx
      exact ⟨lv x ha, ((g2 x).1 ha).1, ((g2 x).1 ha).2, hb⟩
    · rintro ho x hx ⟨a, b⟩
      exact h3 ho _ ((g2 x).2 ⟨hx, a⟩) b
  | .vertex v, .edge e _, hu, hw =>
    obtain ⟨l, g1, g2⟩ := edgeFaces_ok hv hw
    have lv : ∀ a ∈ l, m.fLive a := by
      intro a ha; obtain ⟨-, h, hl, rfl, -⟩ := (g2 a).1 ha; exact hv.face_live _ hl
    obtain ⟨o, h1, h2, h3⟩ := firstM_spec (p := fun f => m.faceHasVertex f v) l (fun a ha => faceHasVertex_ok hv (lv a ha) v)
    refine ⟨o, by simp only [sharedFace, g1, h1], ?_, ?_⟩
    · intro x hx
      obtain ⟨ha, hb⟩ := h2 x hx
      exact ⟨lv x ha, ((g2 x).1 ha).1, hb, ((g2 x).1 ha).2⟩
    · rintro ho x hx ⟨a, b⟩
      exact h3 ho _ ((g2 x).2 ⟨hx, b⟩) a
  | .vertex v, .vertex w, hu, hw =>
    obtain ⟨l, g1, g2⟩ := vertexFaces_ok hv hu
    have lv : ∀ a ∈ l, m.fLive a := by
      intro a ha; obtain ⟨-, h, hl, rfl, -⟩ := (g2 a).1 ha; exact hv.face_live _ hl
    obtain ⟨o, h1, h2, h3⟩ := firstM_spec (p := fun f => m.faceHasVertex f w) l (fun a ha => faceHasVertex_ok hv (lv a ha) w)
    refine ⟨o, by simp only [sharedFace, g1, h1], ?_, ?_⟩
    · intro x hx
      obtain ⟨ha, hb⟩ := h2 x hx
      exact ⟨lv x ha, ((g2 x).1 ha).1, ((g2 x).1 ha).2, hb⟩
    · rintro ho x hx ⟨a, b⟩
      exact h3 ho _ ((g2 x).2 ⟨hx, a⟩) b

theorem SPoint.faceAdjacent_ok (hv : m.Valid) (p : SPoint) (hp : p.On m) {f : ℕ} (hf : m.fLive f) (hlt : f < m.nFFill) :
    ∃ b, faceAdjacent m f p = .ok b ∧ (b = true ↔ p.Touches m f) := by
  match p, hp with
  | .vertex v, hp =>
    obtain ⟨l, g1, g2⟩ := vertexFaces_ok hv hp
    refine ⟨_, by simp only [faceAdjacent, g1]; rfl, ?_⟩
    simp only [List.contains_iff_mem, g2]
    exact ⟨fun h => h.2, fun h => ⟨hlt, h⟩⟩
  | .edge e _, hp => exact faceHasEdge_ok hv hf e
  | .face g _, hp => exact ⟨_, rfl, by rw [beq_iff_eq]; exact eq_comm⟩

theorem SPoint.sharedFace_ok (hv : m.Valid) (p q : SPoint) (hp : p.On m) (hq : q.On m) :
    ∃ o, sharedFace m p q = .ok o ∧ (∀ f, o = some f → m.fLive f ∧ f < m.nFFill ∧ p.Touches m f ∧ q.Touches m f) ∧
      (o = none → ∀ f, f < m.nFFill → ¬ (p.Touches m f ∧ q.Touches m f)) := by
  have main : ∀ l : List ℕ, (∀ f, f ∈ l → m.fLive f) → (∀ f, f ∈ l ↔ f < m.nFFill ∧ p.Touches m f) →
      ∃ o, firstM (fun f => faceAdjacent m f q) l = .ok o ∧ (∀ f, o = some f → m.fLive f ∧ f < m.nFFill ∧ p.Touches m f ∧ q.Touches m f) ∧
      (o = none → ∀ f, f < m.nFFill → ¬ (p.Touches m f ∧ q.Touches m f)) := by
    intro l h1 h2
    obtain ⟨o, g1, g2, g3⟩ := firstM_spec l (fun a ha => faceAdjacent_ok hv q hq (h1 a ha) ((h2 a).1 ha).1)
    refine ⟨o, g1, ?_, ?_⟩
    · intro f hf
      obtain ⟨a, b⟩ := g2 f hf
      exact ⟨h1 f a, ((h2 f).1 a).1, ((h2 f).1 a).2, b⟩
    · rintro ho f hf ⟨a, b⟩
      exact g3 ho f ((h2 f).2 ⟨hf, a⟩) b
  match p, hp with
  | .vertex v, hp =>
    obtain ⟨l, g1, g2⟩ := vertexFaces_ok hv hp
    simp only [sharedFace, g1]
    exact main l (by intro a ha; obtain ⟨-, h, hl, rfl, -⟩ := (g2 a).1 ha; exact hv.face_live _ hl) g2
  | .edge e _, hp =>
    obtain ⟨l, g1, g2⟩ := edgeFaces_ok hv hp
    simp only [sharedFace, g1]
    exact main l (by intro a ha; obtain ⟨-, h, hl, rfl, -⟩ := (g2 a).1 ha; exact hv.face_live _ hl) g2
  | .face f c, hp =>
    refine main [f] (by intro a ha; simp only [List.mem_singleton] at ha; subst ha; exact hp.1) ?_
    intro g
    simp only [List.mem_singleton]
    constructor
    · rintro rfl; exact ⟨hp.2, rfl⟩
    · rintro ⟨-, h⟩; exact h.symm

/-! ### Conversions -/

section conv
variable {T : Type} [AddCommGroup T] [Module ℝ T]

theorem denote_corner (m : Mesh) (hv : m.Valid) {f h : ℕ} (ht : m.fIsTriangle f) (data : ℕ → T) (a b : ℝ) :
    (h = m.fHalfedge f → (BVec.face f ⟨a, b, 0⟩).denote m data = a • data (m.heVertex h) + b • data (m.heVertex (m.heNext h))) ∧
    (h = m.heNext (m.fHalfedge f) → (BVec.face f ⟨0, a, b⟩).denote m data = a • data (m.heVertex h) + b • data (m.heVertex (m.heNext h))) ∧
    (h = m.heNext (m.heNext (m.fHalfedge f)) → (BVec.face f ⟨b, 0, a⟩).denote m data = a • data (m.heVertex h) + b • data (m.heVertex (m.heNext h))) := by
  refine ⟨?_, ?_, ?_⟩ <;> intro e <;> rw [e] <;> simp only [BVec.denote]
  · module
  · module
  · have : m.heNext (m.heNext (m.heNext (m.fHalfedge f))) = m.fHalfedge f := ht.symm
    rw [this]; module

theorem denote_edge_even (hv : m.Valid) {h : ℕ} (hl : m.heLive h) (c : V2) (data : ℕ → T) :
    (BVec.orientation h → c.x • data (m.heVertex h) + c.y • data (m.heVertex (m.heNext h)) = (BVec.edge (h / 2) c).denote m data) ∧
    (¬ BVec.orientation h → c.y • data (m.heVertex h) + c.x • data (m.heVertex (m.heNext h)) = (BVec.edge (h / 2) c).denote m data) := by
  unfold BVec.orientation
  rw [hv.vertex_next hl]
  constructor
  · intro e
    have e1 : h = 2 * (h / 2) := by omega
    have e2 : twin h = 2 * (h / 2) + 1 := by conv_lhs => rw [e1]
                                             exact twin_two_mul _
    simp only [BVec.denote]; rw [e2, ← e1]
  · intro e
    have e1 : h = 2 * (h / 2) + 1 := by omega
    have e2 : twin h = 2 * (h / 2) := by conv_lhs => rw [e1]
                                         exact twin_two_mul_add _
    simp only [BVec.denote]; rw [e2, ← e1]; exact add_comm _ _

/-- **C41, inFace.** For a triangle `f` touched by the vector, `inFace(f)` denotes the same vector. -/
theorem C41_inFace (m : Mesh) (hv : m.Valid) (f : ℕ) (hf : m.fLive f) (ht : m.fIsTriangle f) (u : BVec) (htu : u.Touches m f) :
    ∃ c, u.inFace m f = .ok (.face f c) ∧ (u.Balanced → c.total = 0) ∧
      ∀ (T : Type) [AddCommGroup T] [Module ℝ T] (data : ℕ → T), (BVec.face f c).denote m data = u.denote m data := by
  obtain ⟨l0, l1, l2, f0, f1, f2⟩ := hv.tri_of hf ht
  match u, htu with
  | .face g c, htu =>
    obtain rfl : g = f := htu
    exact ⟨c, by simp [BVec.inFace], id, fun _ _ _ _ => rfl⟩
  | .vertex v, htu =>
    obtain ⟨b, h1, h2⟩ := faceHasVertex_ok hv hf v
    obtain rfl : b = true := h2.2 htu
    refine ⟨⟨0, 0, 0⟩, by simp only [BVec.inFace, h1], fun _ => by simp [V3.total], fun T _ _ data => ?_⟩
    simp [BVec.denote]
  | .edge e c, htu =>
    obtain ⟨h, hl, hhf, hhe⟩ := htu
    simp only [BVec.inFace]
    by_cases e0 : e = heEdge (m.fHalfedge f)
    · rw [if_pos e0]
      refine ⟨_, rfl, ?_, fun T _ _ data => ?_⟩
      · intro hb; change c.x + c.y = 0 at hb; unfold V3.total; split <;> simp only <;> linarith
      · split
        · rw [(denote_corner m hv ht data c.x c.y).1 rfl, (denote_edge_even hv l0 c data).1 (by assumption), e0]; rfl
        · rw [(denote_corner m hv ht data c.y c.x).1 rfl, (denote_edge_even hv l0 c data).2 (by assumption), e0]; rfl
    rw [if_neg e0]
    by_cases e1 : e = heEdge (m.heNext (m.fHalfedge f))
    · rw [if_pos e1]
      refine ⟨_, rfl, ?_, fun T _ _ data => ?_⟩
      · intro hb; change c.x + c.y = 0 at hb; unfold V3.total; split <;> simp only <;> linarith
      · split
        · rw [(denote_corner m hv ht data c.x c.y).2.1 rfl, (denote_edge_even hv l1 c data).1 (by assumption), e1]; rfl
        · rw [(denote_corner m hv ht data c.y c.x).2.1 rfl, (denote_edge_even hv l1 c data).2 (by assumption), e1]; rfl
    rw [if_neg e1]
    have e2 : e = heEdge (m.heNext (m.heNext (m.fHalfedge f))) := by
      rcases hv.tri_cases hf ht hl hhf with h' | h' | h'
      · rw [h'] at hhe; exact absurd hhe.symm e0
      · rw [h'] at hhe; exact absurd hhe.symm e1
      · rw [h'] at hhe; exact hhe.symm
    refine ⟨_, rfl, ?_, fun T _ _ data => ?_⟩
    · intro hb; change c.x + c.y = 0 at hb; unfold V3.total; split <;> simp only <;> linarith
    · split
      · rw [(denote_corner m hv ht data c.x c.y).2.2 rfl, (denote_edge_even hv l2 c data).1 (by assumption), e2]; rfl
      · rw [(denote_corner m hv ht data c.y c.x).2.2 rfl, (denote_edge_even hv l2 c data).2 (by assumption), e2]; rfl

example : (BVec.edge 2 ⟨-1, 1⟩).Touches square 1 ∧ square.fLive 1 ∧ square.fIsTriangle 1 ∧ ∃ c, (BVec.edge 2 ⟨-1, 1⟩).inFace square 1 = .ok (.face 1 c) := by
  have h1 : (BVec.edge 2 ⟨-1, 1⟩).Touches square 1 := ⟨5, by decide +kernel⟩
  have h2 : square.fLive 1 := by decide +kernel
  have h3 : square.fIsTriangle 1 := by decide +kernel
  obtain ⟨c, h, -⟩ := C41_inFace square square_valid 1 h2 h3 _ h1
  exact ⟨h1, h2, h3, c, h⟩

/-- **C41, inFace (refutation).** The third side is not compared: an edge vector whose edge is not in the target face is
accepted and becomes a vector along the third side of that face, instead of being refused. -/
theorem C41_inFace_fails : ¬ ∀ (m : Mesh) (f : ℕ) (u : BVec), m.Valid → TriMesh m → u.On m → m.fLive f → f < m.nFFill →
    ¬ u.Touches m f → u.inFace m f = .error .throw := by
  intro h
  have := h tetra 0 (.edge 5 ⟨-1, 1⟩) tetra_valid tetra_tri (by show tetra.heLive _; decide +kernel) (by decide +kernel) (by decide +kernel) (by
    rintro ⟨h, -, h1, h2⟩
    have : h = 10 ∨ h = 11 := by omega
    rcases this with rfl | rfl <;> revert h1 <;> decide +kernel)
  simp only [BVec.inFace] at this
  rw [if_neg (by decide +kernel), if_neg (by decide +kernel)] at this
  cases this

/-- **C41, inSomeFace.** `inSomeFace()` denotes the same vector, in a face of the mesh. -/
theorem C41_inSomeFace (m : Mesh) (hv : m.Valid) (htri : TriMesh m) (u : BVec) (hu : u.On m) :
    ∃ f c, u.inSomeFace m = .face f c ∧ m.fLive f ∧ f < m.nFFill ∧ u.Touches m f ∧ (u.Balanced → c.total = 0) ∧
      ∀ (T : Type) [AddCommGroup T] [Module ℝ T] (data : ℕ → T), (u.inSomeFace m).denote m data = u.denote m data := by
  match u, hu with
  | .face f c, hu => exact ⟨f, c, rfl, hu.1, hu.2, rfl, id, fun _ _ _ _ => rfl⟩
  | .vertex v, hu =>
    obtain ⟨hl, e⟩ := hv.v_he v hu
    refine ⟨_, _, rfl, hv.face_live _ hl, Valid.face_lt (vHalfedge_int hv hu), ⟨_, hl, rfl, e⟩, fun _ => by simp [V3.total], fun T _ _ data => ?_⟩
    simp [BVec.inSomeFace, BVec.denote]
  | .edge e c, hu =>
    have hl : m.heLive (eHalfedge e) := hu
    have hx := hv.edge_int e hu
    have hf := hv.face_live _ hl
    have hlt : m.heFace (eHalfedge e) < m.nFFill := Valid.face_lt hx
    have ht := htri _ hf hlt
    have hd : ∀ (T : Type) [AddCommGroup T] [Module ℝ T] (data : ℕ → T),
        c.x • data (m.heVertex (eHalfedge e)) + c.y • data (m.heVertex (m.heNext (eHalfedge e))) = (BVec.edge e c).denote m data := by
      intro T _ _ data
      have := (denote_edge_even hv hl c data).1 (by show 2 * e % 2 = 0; omega)
      rwa [show eHalfedge e / 2 = e by unfold eHalfedge; omega] at this
    have hT : (BVec.edge e c).Touches m (m.heFace (eHalfedge e)) := ⟨_, hl, rfl, by unfold eHalfedge; omega⟩
    simp only [BVec.inSomeFace]
    by_cases e0 : eHalfedge e = m.fHalfedge (m.heFace (eHalfedge e))
    · rw [if_pos e0]
      refine ⟨_, _, rfl, hf, hlt, hT, fun hb => ?_, fun T _ _ data => ?_⟩
      · change c.x + c.y = 0 at hb; unfold V3.total; simp only; linarith
      · rw [(denote_corner m hv ht data _ _).1 e0, hd]
    rw [if_neg e0]
    by_cases e1 : eHalfedge e = m.heNext (m.fHalfedge (m.heFace (eHalfedge e)))
    · rw [if_pos e1]
      refine ⟨_, _, rfl, hf, hlt, hT, fun hb => ?_, fun T _ _ data => ?_⟩
      · change c.x + c.y = 0 at hb; unfold V3.total; simp only; linarith
      · rw [(denote_corner m hv ht data _ _).2.1 e1, hd]
    rw [if_neg e1]
    refine ⟨_, _, rfl, hf, hlt, hT, fun hb => ?_, fun T _ _ data => ?_⟩
    · change c.x + c.y = 0 at hb; unfold V3.total; simp only; linarith
    · rw [(denote_corner m hv ht data _ _).2.2 ?_, hd]
      rcases hv.tri_cases hf ht hl rfl with h | h | h
      · exact absurd h e0
      · exact absurd h e1
      · exact h

/-- **C41, inEdge.** `inEdge(e)` keeps the vector if its element is `e` or an end of `e`, and throws otherwise. -/
theorem C41_inEdge (m : Mesh) (hv : m.Valid) (e : ℕ) (hl : m.heLive (2 * e)) (u : BVec) :
    (u.EndOf m e → ∃ c, u.inEdge m e = .ok (.edge e c) ∧ (u.Balanced → c.x + c.y = 0) ∧
      ∀ (T : Type) [AddCommGroup T] [Module ℝ T] (data : ℕ → T), (BVec.edge e c).denote m data = u.denote m data) ∧
    (¬ u.EndOf m e → u.inEdge m e = .error .throw) := by
  match u with
  | .face f c => exact ⟨False.elim, fun _ => rfl⟩
  | .edge e' c =>
    constructor
    · rintro (rfl : e' = e)
      exact ⟨c, by simp [BVec.inEdge], id, fun _ _ _ _ => rfl⟩
    · intro h
      have : e' ≠ e := h
      simp [BVec.inEdge, this]
  | .vertex v =>
    simp only [BVec.inEdge]
    by_cases h : v ∈ m.edgeVertices e
    · refine ⟨fun _ => ⟨⟨0, 0⟩, if_pos h, fun _ => by simp, fun T _ _ data => by simp [BVec.denote]⟩, fun h' => ?_⟩
      exact absurd ((edgeVertices_iff hv hl v).1 h) h'
    · refine ⟨fun h' => absurd ((edgeVertices_iff hv hl v).2 h') h, fun _ => if_neg h⟩

example : (BVec.vertex 1).EndOf tetra 0 ∧ ¬ (BVec.vertex 2).EndOf tetra 0 := by
  refine ⟨Or.inr (by decide +kernel), ?_⟩
  rintro (h | h) <;> revert h <;> decide +kernel

/-! ### The vector space operations -/

theorem combine_ok (m : Mesh) (hv : m.Valid) (htri : TriMesh m) (s : ℝ) (f2 : V2 → V2 → V2) (f3 : V3 → V3 → V3)
    (h2 : ∀ a b, (f2 a b).x = a.x + s * b.x ∧ (f2 a b).y = a.y + s * b.y)
    (h3 : ∀ a b, (f3 a b).x = a.x + s * b.x ∧ (f3 a b).y = a.y + s * b.y ∧ (f3 a b).z = a.z + s * b.z)
    (u w : BVec) (hu : u.On m) (hw : w.On m) :
    ((∃ f, f < m.nFFill ∧ u.Touches m f ∧ w.Touches m f) → ∃ z, BVec.combine m f2 f3 u w = .ok z ∧ z.On m ∧ (u.Balanced → w.Balanced → z.Balanced) ∧
      ∀ (T : Type) [AddCommGroup T] [Module ℝ T] (data : ℕ → T), z.denote m data = u.denote m data + s • w.denote m data) ∧
    ((¬ ∃ f, f < m.nFFill ∧ u.Touches m f ∧ w.Touches m f) → BVec.combine m f2 f3 u w = .error .throw) := by
  by_cases hs : ∃ v, u = .vertex v ∧ w = .vertex v
  · obtain ⟨v, rfl, rfl⟩ := hs
    have : BVec.combine m f2 f3 (.vertex v) (.vertex v) = .ok (.vertex v) := by simp [BVec.combine, BVec.sameVertex]
    refine ⟨fun _ => ⟨_, this, hu, fun _ _ => trivial, fun T _ _ data => by simp [BVec.denote]⟩, fun hn => ?_⟩
    obtain ⟨hl, e⟩ := hv.v_he v hu
    exact absurd ⟨m.heFace (m.vHalfedge v), Valid.face_lt (vHalfedge_int hv hu), ⟨_, hl, rfl, e⟩, ⟨_, hl, rfl, e⟩⟩ hn
  · have hsame : BVec.sameVertex u w = false := by
      match u, w, hs with
      | .vertex v, .vertex v', hs =>
        show (v == v') = false
        simp only [beq_eq_false_iff_ne]; rintro rfl; exact hs ⟨v, rfl, rfl⟩
      | .vertex v, .edge _ _, _ => rfl
      | .vertex v, .face _ _, _ => rfl
      | .edge _ _, _, _ => rfl
      | .face _ _, _, _ => rfl
    obtain ⟨o, g1, g2⟩ := BVec.sharedEdge_ok hv u w hu hw
    obtain ⟨o', k1, k2, k3⟩ := BVec.sharedFace_ok hv u w hu hw
    simp only [BVec.combine]
    rw [if_neg (by rw [hsame]; simp)]
    rw [g1]
    match o, g2 with
    | some e, g2 =>
      obtain ⟨hl, hue, hwe⟩ := g2 e rfl
      obtain ⟨a, a1, a2, a3⟩ := (C41_inEdge m hv e hl u).1 hue
      obtain ⟨b, b1, b2, b3⟩ := (C41_inEdge m hv e hl w).1 hwe
      simp only [a1, b1]
      refine ⟨fun _ => ⟨_, rfl, hl, ?_, fun T _ _ data => ?_⟩, fun hn => ?_⟩
      · intro hub hwb
        show (f2 a b).x + (f2 a b).y = 0
        rw [(h2 a b).1, (h2 a b).2]; linear_combination a2 hub + s * b2 hwb
      · rw [← a3, ← b3]; simp only [BVec.denote, (h2 a b).1, (h2 a b).2]; module
      · exfalso
        apply hn
        have hl1 : m.heLive (2 * e + 1) := by have := (live_pair hv hl).2; rwa [show 2 * e / 2 = e by omega] at this
        have hlt : m.heFace (2 * e) < m.nFFill := Valid.face_lt (hv.edge_int e hl)
        have t : ∀ x : BVec, x.EndOf m e → x.Touches m (m.heFace (2 * e)) := by
          intro x hx
          match x, hx with
          | .vertex v, hx =>
            rcases hx with rfl | rfl
            · exact ⟨2 * e, hl, rfl, rfl⟩
            · exact ⟨m.heNext (2 * e), hv.next_live _ hl, hv.face_next hl, by rw [hv.vertex_next hl, twin_two_mul]⟩
          | .edge e' c, hx =>
            obtain rfl : e' = e := hx
            exact ⟨2 * e', hl, rfl, by omega⟩
        exact ⟨_, hlt, t u hue, t w hwe⟩
    | none, _ =>
      rw [k1]
      match o', k2, k3 with
      | none, _, k3 =>
        refine ⟨?_, fun _ => rfl⟩
        rintro ⟨f, hf, h⟩
        exact absurd h (k3 rfl f hf)
      | some f, k2, _ =>
        obtain ⟨hf, hlt, tu, tw⟩ := k2 f rfl
        obtain ⟨a, a1, a2, a3⟩ := C41_inFace m hv f hf (htri f hf hlt) u tu
        obtain ⟨b, b1, b2, b3⟩ := C41_inFace m hv f hf (htri f hf hlt) w tw
        simp only [a1, b1]
        refine ⟨fun _ => ⟨_, rfl, ⟨hf, hlt⟩, ?_, fun T _ _ data => ?_⟩, fun hn => absurd ⟨f, hlt, tu, tw⟩ hn⟩
        · intro hub hwb
          have a2' := a2 hub
          have b2' := b2 hwb
          unfold V3.total at a2' b2'
          show (f3 a b).x + (f3 a b).y + (f3 a b).z = 0
          rw [(h3 a b).1, (h3 a b).2.1, (h3 a b).2.2]; linear_combination a2' + s * b2'
        · rw [← a3, ← b3]; simp only [BVec.denote, (h3 a b).1, (h3 a b).2.1, (h3 a b).2.2]; module

/-- **C41, sums and differences.** On a valid triangle mesh `u + w` and `u - w` denote the sum and the difference if the
elements of `u` and `w` touch a common face, and throw otherwise. -/
theorem C41_add_sub (m : Mesh) (hv : m.Valid) (htri : TriMesh m) (u w : BVec) (hu : u.On m) (hw : w.On m) :
    ((∃ f, f < m.nFFill ∧ u.Touches m f ∧ w.Touches m f) →
      (∃ z, u.add m w = .ok z ∧ z.On m ∧ (u.Balanced → w.Balanced → z.Balanced) ∧
        ∀ (T : Type) [AddCommGroup T] [Module ℝ T] (data : ℕ → T), z.denote m data = u.denote m data + w.denote m data) ∧
      (∃ z, u.sub m w = .ok z ∧ z.On m ∧ (u.Balanced → w.Balanced → z.Balanced) ∧
        ∀ (T : Type) [AddCommGroup T] [Module ℝ T] (data : ℕ → T), z.denote m data = u.denote m data - w.denote m data)) ∧
    ((¬ ∃ f, f < m.nFFill ∧ u.Touches m f ∧ w.Touches m f) → u.add m w = .error .throw ∧ u.sub m w = .error .throw) := by
  have ha := combine_ok m hv htri 1 V2.add V3.add (by intro a b; simp [V2.add]) (by intro a b; simp [V3.add]) u w hu hw
  have hb := combine_ok m hv htri (-1) V2.sub V3.sub (by intro a b; simp only [V2.sub]; constructor <;> ring)
    (by intro a b; simp only [V3.sub]; refine ⟨by ring, by ring, by ring⟩) u w hu hw
  refine ⟨fun h => ⟨?_, ?_⟩, fun h => ⟨ha.2 h, hb.2 h⟩⟩
  · obtain ⟨z, h1, h2, h3, h4⟩ := ha.1 h
    exact ⟨z, h1, h2, h3, fun T _ _ data => by rw [h4, one_smul]⟩
  · obtain ⟨z, h1, h2, h3, h4⟩ := hb.1 h
    exact ⟨z, h1, h2, h3, fun T _ _ data => by rw [h4, neg_one_smul, sub_eq_add_neg]⟩

example : ∃ f, f < square.nFFill ∧ (BVec.edge 4 ⟨-1, 1⟩).Touches square f ∧ (BVec.face 1 ⟨2, -1, -1⟩).Touches square f :=
  ⟨1, by decide +kernel, ⟨8, by decide +kernel⟩, rfl⟩

/-- **C41, scaling and normalisation.** `*`, `/`, unary `-` denote the scaled vector; `normalizedDisplacement` returns a
displacement and keeps displacements. -/
theorem C41_scale (m : Mesh) (u : BVec) (s : ℝ) (data : ℕ → T) :
    (u.smul s).denote m data = s • u.denote m data ∧ (u.sdiv s).denote m data = s⁻¹ • u.denote m data ∧
    u.neg.denote m data = -u.denote m data ∧ u.normalized.Balanced ∧ (u.Balanced → u.normalized = u) ∧
    (u.Balanced → (u.smul s).Balanced ∧ (u.sdiv s).Balanced ∧ u.neg.Balanced) := by
  match u with
  | .vertex v => simp [BVec.smul, BVec.sdiv, BVec.neg, BVec.denote, BVec.normalized, BVec.Balanced]
  | .edge e c =>
    simp only [BVec.smul, BVec.sdiv, BVec.neg, BVec.denote, BVec.normalized, BVec.Balanced, V2.smul, V2.sdiv, V2.neg, V2.sub]
    refine ⟨by module, ?_, by module, by ring, ?_, ?_⟩
    · rw [one_div]; module
    · intro h; rw [h]; simp
    · intro h; exact ⟨by linear_combination s * h, by linear_combination (1 / s) * h, by linear_combination -h⟩
  | .face f c =>
    simp only [BVec.smul, BVec.sdiv, BVec.neg, BVec.denote, BVec.normalized, BVec.Balanced, V3.smul, V3.sdiv, V3.neg, V3.sub, V3.total]
    refine ⟨by module, ?_, by module, by ring, ?_, ?_⟩
    · rw [one_div]; module
    · intro h; rw [h]; simp
    · intro h; exact ⟨by linear_combination s * h, by linear_combination (1 / s) * h, by linear_combination -h⟩

end conv

/-! ### Inner products and norms -/

/-- `A`, `B`, `C` is a layout of the triangle `f` in the plane: positions of its three corners with the given side lengths. -/
def Layout (m : Mesh) (len : ℕ → ℝ) (f : ℕ) (A B C : V2) : Prop :=
  len (m.fHalfedge f / 2) = (B.sub A).norm ∧ len (m.heNext (m.fHalfedge f) / 2) = (C.sub B).norm ∧
    len (m.heNext (m.heNext (m.fHalfedge f)) / 2) = (A.sub C).norm

theorem V2.norm_sq (u : V2) : u.norm * u.norm = u.x * u.x + u.y * u.y :=
  Real.mul_self_sqrt (add_nonneg (mul_self_nonneg _) (mul_self_nonneg _))

/-- **C41, inner product.** `dot(u, w)` is the Euclidean inner product of the two vectors laid out in a common face, for every
layout of that face; it throws exactly if there is no common face. -/
theorem C41_dot (m : Mesh) (hv : m.Valid) (htri : TriMesh m) (len : ℕ → ℝ) (u w : BVec) (hu : u.On m) (hw : w.On m) (bu : u.Balanced) (bw : w.Balanced) :
    ((∃ f, f < m.nFFill ∧ u.Touches m f ∧ w.Touches m f) → ∃ r f a b, u.dot m len w = .ok r ∧
      f < m.nFFill ∧ u.Touches m f ∧ w.Touches m f ∧ u.inFace m f = .ok (.face f a) ∧ w.inFace m f = .ok (.face f b) ∧
      ∀ A B C, Layout m len f A B C → r = (Bary.toCartesian A B C a).dot (Bary.toCartesian A B C b)) ∧
    ((¬ ∃ f, f < m.nFFill ∧ u.Touches m f ∧ w.Touches m f) → u.dot m len w = .error .throw) := by
  obtain ⟨o, k1, k2, k3⟩ := BVec.sharedFace_ok hv u w hu hw
  unfold BVec.dot
  rw [k1]
  match o, k2, k3 with
  | none, _, k3 =>
    refine ⟨?_, fun _ => rfl⟩
    rintro ⟨f, hf, h⟩
    exact absurd h (k3 rfl f hf)
  | some f, k2, _ =>
    obtain ⟨hf, hlt, tu, tw⟩ := k2 f rfl
    obtain ⟨a, a1, a2, -⟩ := C41_inFace m hv f hf (htri f hf hlt) u tu
    obtain ⟨b, b1, b2, -⟩ := C41_inFace m hv f hf (htri f hf hlt) w tw
    refine ⟨fun _ => ⟨_, f, a, b, by simp only [a1, b1]; rfl, hlt, tu, tw, a1, b1, ?_⟩, fun hn => absurd ⟨f, hlt, tu, tw⟩ hn⟩
    rintro A B C ⟨h1, h2, h3⟩
    have ea : a.z = -a.x - a.y := by have := a2 bu; unfold V3.total at this; linarith
    have eb : b.z = -b.x - b.y := by have := b2 bw; unfold V3.total at this; linarith
    simp only [heEdge]
    have s1 := V2.norm_sq (B.sub A)
    have s2 := V2.norm_sq (C.sub B)
    have s3 := V2.norm_sq (A.sub C)
    rw [← h1] at s1; rw [← h2] at s2; rw [← h3] at s3
    simp only [mul_assoc, s1, s2, s3]
    simp only [Bary.toCartesian, V2.dot, V2.add, V2.smul, V2.sub, ea, eb]
    ring

/-- **C41, norms.** `norm2` and `norm` of a displacement are the squared length and the length of the vector laid out. -/
theorem C41_norm (m : Mesh) (len : ℕ → ℝ) :
    (∀ f (c : V3) (A B C : V2), c.total = 0 → Layout m len f A B C →
      (BVec.face f c).norm2 m len = (Bary.toCartesian A B C c).norm2 ∧ (BVec.face f c).norm m len = (Bary.toCartesian A B C c).norm) ∧
    (∀ e (c A B : V2), c.x + c.y = 0 → len e = (B.sub A).norm →
      (BVec.edge e c).norm2 m len = ((A.smul c.x).add (B.smul c.y)).norm2 ∧ (BVec.edge e c).norm m len = ((A.smul c.x).add (B.smul c.y)).norm) ∧
    (∀ v, (BVec.vertex v).norm2 m len = 0 ∧ (BVec.vertex v).norm m len = 0) := by
  refine ⟨?_, ?_, fun v => ⟨rfl, rfl⟩⟩
  · rintro f c A B C hc ⟨h1, h2, h3⟩
    have ec : c.z = -c.x - c.y := by unfold V3.total at hc; linarith
    have s1 := V2.norm_sq (B.sub A)
    have s2 := V2.norm_sq (C.sub B)
    have s3 := V2.norm_sq (A.sub C)
    rw [← h1] at s1; rw [← h2] at s2; rw [← h3] at s3
    have key : (BVec.face f c).norm2 m len = (Bary.toCartesian A B C c).norm2 := by
      simp only [BVec.norm2, heEdge, s1, s2, s3]
      simp only [Bary.toCartesian, V2.norm2, V2.add, V2.smul, V2.sub, ec]
      ring
    refine ⟨key, ?_⟩
    unfold V2.norm
    unfold V2.norm2 at key
    rw [← key]; rfl
  · intro e c A B hc h1
    have ec : c.y = -c.x := by linarith
    have s1 := V2.norm_sq (B.sub A)
    rw [← h1] at s1
    have key : (BVec.edge e c).norm2 m len = ((A.smul c.x).add (B.smul c.y)).norm2 := by
      simp only [BVec.norm2, neg_mul, s1]
      simp only [V2.norm2, V2.add, V2.smul, V2.sub, ec]
      ring
    refine ⟨key, ?_⟩
    unfold V2.norm
    unfold V2.norm2 at key
    rw [← key]; rfl

theorem V2.norm_of (u : V2) (r : ℝ) (hr : 0 ≤ r) (h : u.x * u.x + u.y * u.y = r * r) : u.norm = r := by
  unfold V2.norm; rw [h, Real.sqrt_mul_self hr]

/-- A layout with sides 3, 4, 5 of face 0 of the tetrahedron. -/
example : ∃ len, Layout tetra len 0 ⟨0, 0⟩ ⟨3, 0⟩ ⟨3, 4⟩ := by
  refine ⟨fun e => if e = tetra.fHalfedge 0 / 2 then 3 else if e = tetra.heNext (tetra.fHalfedge 0) / 2 then 4 else 5, ?_, ?_, ?_⟩
  · show (if _ = _ then (3 : ℝ) else _) = _
    rw [if_pos rfl]; exact (V2.norm_of _ _ (by norm_num) (by norm_num [V2.sub])).symm
  · show (if _ = _ then (3 : ℝ) else if _ = _ then 4 else _) = _
    rw [if_neg (by decide +kernel), if_pos rfl]; exact (V2.norm_of _ _ (by norm_num) (by norm_num [V2.sub])).symm
  · simp only; rw [if_neg (by decide +kernel), if_neg (by decide +kernel)]; exact (V2.norm_of _ _ (by norm_num) (by norm_num [V2.sub])).symm

/-! ### Rotations -/

theorem heron (A B C : V2) (a b c : ℝ) (ha : a = (B.sub A).norm) (hb : b = (C.sub B).norm) (hc : c = (A.sub C).norm) :
    a * a = (B.x - A.x) * (B.x - A.x) + (B.y - A.y) * (B.y - A.y) ∧ b * b = (C.x - B.x) * (C.x - B.x) + (C.y - B.y) * (C.y - B.y) ∧
    c * c = (A.x - C.x) * (A.x - C.x) + (A.y - C.y) * (A.y - C.y) ∧
    0.5 * (a + b + c) * (0.5 * (a + b + c) - a) * (0.5 * (a + b + c) - b) * (0.5 * (a + b + c) - c) =
      (((B.sub A).cross (C.sub A)) / 2) * (((B.sub A).cross (C.sub A)) / 2) := by
  have s1 := V2.norm_sq (B.sub A)
  have s2 := V2.norm_sq (C.sub B)
  have s3 := V2.norm_sq (A.sub C)
  rw [← ha] at s1; rw [← hb] at s2; rw [← hc] at s3
  refine ⟨s1, s2, s3, ?_⟩
  have : 0.5 * (a + b + c) * (0.5 * (a + b + c) - a) * (0.5 * (a + b + c) - b) * (0.5 * (a + b + c) - c) =
      (2 * (a * a) * (b * b) + 2 * (b * b) * (c * c) + 2 * (c * c) * (a * a) - (a * a) * (a * a) - (b * b) * (b * b) - (c * c) * (c * c)) / 16 := by ring
  rw [this, s1, s2, s3]
  simp only [V2.sub, V2.cross]
  ring

/-- **C41, rotation by a quarter turn.** For every counter-clockwise layout of the triangle, `faceVectorRotate90` of a displacement
is the displacement turned by a quarter turn counter-clockwise. -/
theorem C41_rotate90 (A B C : V2) (lij ljk lki : ℝ) (u : V3) (h1 : lij = (B.sub A).norm) (h2 : ljk = (C.sub B).norm) (h3 : lki = (A.sub C).norm)
    (hD : 0 < (B.sub A).cross (C.sub A)) (hu : u.total = 0) :
    Bary.toCartesian A B C (BVec.rot90Coords lij ljk lki u) = (Bary.toCartesian A B C u).rotate90 ∧ (BVec.rot90Coords lij ljk lki u).total = 0 := by
  obtain ⟨s1, s2, s3, hH⟩ := heron A B C lij ljk lki h1 h2 h3
  have hz : u.z = -u.x - u.y := by unfold V3.total at hu; linarith
  have hA : BVec.rot90Coords lij ljk lki u = V3.sdiv ⟨(lki * lki - lij * lij + ljk * ljk) * u.z - (ljk * ljk - lki * lki + lij * lij) * u.y,
      (lij * lij - ljk * ljk + lki * lki) * u.x - (lki * lki - lij * lij + ljk * ljk) * u.z,
      (ljk * ljk - lki * lki + lij * lij) * u.y - (lij * lij - ljk * ljk + lki * lki) * u.x⟩ (2 * (B.sub A).cross (C.sub A)) := by
    simp only [BVec.rot90Coords]
    rw [hH, Real.sqrt_mul_self (by positivity)]
    congr 1; ring
  rw [hA, s1, s2, s3, hz]
  have hD' : (B.sub A).cross (C.sub A) ≠ 0 := hD.ne'
  generalize hDD : (B.sub A).cross (C.sub A) = D at *
  have hDe : D = (B.x - A.x) * (C.y - A.y) - (B.y - A.y) * (C.x - A.x) := by rw [← hDD]; rfl
  refine ⟨?_, ?_⟩
  · ext <;> simp only [Bary.toCartesian, V2.add, V2.smul, V3.sdiv, V2.rotate90, hz]
    · field_simp; rw [hDe]; ring
    · field_simp; rw [hDe]; ring
  · simp only [V3.total, V3.sdiv]; ring

/-- **C41, rotation.** For every counter-clockwise layout of the triangle, `faceVectorRotate` of a displacement by an angle is the
displacement turned counter-clockwise by that angle. -/
theorem C41_rotate (A B C : V2) (lij ljk lki : ℝ) (u : V3) (angle : ℝ) (h1 : lij = (B.sub A).norm) (h2 : ljk = (C.sub B).norm) (h3 : lki = (A.sub C).norm)
    (hD : 0 < (B.sub A).cross (C.sub A)) (hu : u.total = 0) :
    Bary.toCartesian A B C (BVec.rotCoords lij ljk lki u angle) = (V2.fromAngle angle).mul (Bary.toCartesian A B C u) ∧
      (BVec.rotCoords lij ljk lki u angle).total = 0 := by
  have hz : u.z = -u.x - u.y := by unfold V3.total at hu; linarith
  have key : BVec.rotCoords lij ljk lki u angle = (u.smul (Real.cos angle)).add ((BVec.rot90Coords lij ljk lki u).smul (Real.sin angle)) := by
    obtain ⟨s1, s2, s3, hH⟩ := heron A B C lij ljk lki h1 h2 h3
    have hA2 : -(lij - ljk - lki) * (lij + ljk - lki) * (lij - ljk + lki) * (lij + ljk + lki) / 16 =
        (((B.sub A).cross (C.sub A)) / 2) * (((B.sub A).cross (C.sub A)) / 2) := by rw [← hH]; ring
    have hD' : (B.sub A).cross (C.sub A) ≠ 0 := hD.ne'
    simp only [BVec.rotCoords, BVec.rot90Coords]
    rw [hA2, hH, Real.sqrt_mul_self (by positivity), hz]
    generalize (B.sub A).cross (C.sub A) = D at *
    ext <;> simp only [V3.sdiv, V3.add, V3.smul] <;> (try rw [hz]) <;> field_simp <;> ring
  obtain ⟨r1, r2⟩ := C41_rotate90 A B C lij ljk lki u h1 h2 h3 hD hu
  rw [key]
  generalize BVec.rot90Coords lij ljk lki u = r at *
  have rx := congrArg V2.x r1
  have ry := congrArg V2.y r1
  simp only [Bary.toCartesian, V2.add, V2.smul, V2.rotate90] at rx ry
  refine ⟨?_, ?_⟩
  · ext <;> simp only [Bary.toCartesian, V2.add, V2.smul, V3.add, V3.smul, V2.mul, V2.fromAngle]
    · linear_combination Real.sin angle * rx
    · linear_combination Real.sin angle * ry
  · unfold V3.total at *
    simp only [V3.add, V3.smul]
    linear_combination Real.cos angle * hu + Real.sin angle * r2

/-- Lengths, angles and squares of the quarter turn, for every triangle with positive area. -/
theorem C41_rotate90_algebra (A B C : V2) (lij ljk lki : ℝ) (u : V3) (h1 : lij = (B.sub A).norm) (h2 : ljk = (C.sub B).norm) (h3 : lki = (A.sub C).norm)
    (hD : 0 < (B.sub A).cross (C.sub A)) (hu : u.total = 0) :
    (Bary.toCartesian A B C (BVec.rot90Coords lij ljk lki u)).norm = (Bary.toCartesian A B C u).norm ∧
    (Bary.toCartesian A B C (BVec.rot90Coords lij ljk lki u)).dot (Bary.toCartesian A B C u) = 0 ∧
    BVec.rot90Coords lij ljk lki (BVec.rot90Coords lij ljk lki u) = u.neg := by
  obtain ⟨r1, r2⟩ := C41_rotate90 A B C lij ljk lki u h1 h2 h3 hD hu
  obtain ⟨q1, q2⟩ := C41_rotate90 A B C lij ljk lki _ h1 h2 h3 hD r2
  refine ⟨?_, ?_, ?_⟩
  · rw [r1]; unfold V2.norm V2.rotate90; congr 1; ring
  · rw [r1]; simp only [V2.rotate90, V2.dot]; ring
  · rw [r1] at q1
    generalize BVec.rot90Coords lij ljk lki (BVec.rot90Coords lij ljk lki u) = r at *
    have rx := congrArg V2.x q1
    have ry := congrArg V2.y q1
    simp only [Bary.toCartesian, V2.add, V2.smul, V2.rotate90] at rx ry
    have hDe : (B.sub A).cross (C.sub A) = (B.x - A.x) * (C.y - A.y) - (B.y - A.y) * (C.x - A.x) := rfl
    rw [hDe] at hD
    have hz : u.z = -u.x - u.y := by unfold V3.total at hu; linarith
    have hrz : r.z = -r.x - r.y := by unfold V3.total at q2; linarith
    rw [hz, hrz] at rx ry
    have ey : r.y = -u.y := by
      have : ((B.x - A.x) * (C.y - A.y) - (B.y - A.y) * (C.x - A.x)) * (r.y + u.y) = 0 := by
        linear_combination (-(C.y - A.y)) * (-rx) + (C.x - A.x) * (-ry)
      rcases mul_eq_zero.1 this with h | h
      · exact absurd h hD.ne'
      · linarith
    have ex : r.x = -u.x := by
      have : ((B.x - A.x) * (C.y - A.y) - (B.y - A.y) * (C.x - A.x)) * (r.x + u.x) = 0 := by
        linear_combination (-(C.y - B.y)) * rx + (C.x - B.x) * ry
      rcases mul_eq_zero.1 this with h | h
      · exact absurd h hD.ne'
      · linarith
    ext
    · exact ex
    · exact ey
    · simp only [V3.neg]; rw [hrz, hz, ex, ey]; ring

/-- A triangle with sides 3, 4, 5, counter-clockwise. -/
example : ∃ A B C : V2, (B.sub A).norm = 3 ∧ (C.sub B).norm = 4 ∧ (A.sub C).norm = 5 ∧ 0 < (B.sub A).cross (C.sub A) :=
  ⟨⟨0, 0⟩, ⟨3, 0⟩, ⟨3, 4⟩, V2.norm_of _ _ (by norm_num) (by norm_num [V2.sub]), V2.norm_of _ _ (by norm_num) (by norm_num [V2.sub]),
    V2.norm_of _ _ (by norm_num) (by norm_num [V2.sub]), by norm_num [V2.sub, V2.cross]⟩

theorem interior_or_twin (hv : m.Valid) {h : ℕ} (hl : m.heLive h) (hx : ¬ m.heIsInterior h) : m.heIsInterior (twin h) := by
  have := hv.ext_twin hl (by unfold heIsInterior faceIsBL at hx; unfold ext; omega)
  unfold heIsInterior faceIsBL; unfold ext at this; exact this

theorem eh_interior (hv : m.Valid) {e : ℕ} (hl : m.heLive (2 * e)) : m.heIsInterior (eHalfedge e) := by
  have := hv.edge_int e hl
  unfold heIsInterior faceIsBL; unfold ext at this; exact this

/-- **C41, rotations of mesh vectors.** On a valid triangle mesh with positive areas, `rotate90` and `rotate` of a displacement
return a displacement in a face touched by the vector that is, in every counter-clockwise layout of that face, the given vector
turned counter-clockwise by a quarter turn and by `angle`; an edge vector turned by half a turn is negated in its edge, and
vertex vectors are kept. -/
theorem C41_rotate_mesh (m : Mesh) (hv : m.Valid) (htri : TriMesh m) (len : ℕ → ℝ) (angle : ℝ) (u : BVec) (hu : u.On m) (bu : u.Balanced) :
    (∀ v, u = .vertex v → u.rotate90 m len = .ok u ∧ u.rotate m len angle = .ok u) ∧
    ((∀ v, u ≠ .vertex v) → ∃ f a c, u.rotate90 m len = .ok (.face f c) ∧ f < m.nFFill ∧ u.Touches m f ∧ u.inFace m f = .ok (.face f a) ∧
      ∀ A B C, Layout m len f A B C → 0 < (B.sub A).cross (C.sub A) → c.total = 0 ∧
        Bary.toCartesian A B C c = (Bary.toCartesian A B C a).rotate90) ∧
    ((∀ v, u ≠ .vertex v) → (∃ e c, u = .edge e c ∧ (V2.fromAngle angle).mul ⟨1, 0⟩ = ⟨-1, 0⟩ ∧ u.rotate m len angle = .ok (.edge e c.neg)) ∨
      ∃ f a c, u.rotate m len angle = .ok (.face f c) ∧ f < m.nFFill ∧ u.Touches m f ∧ u.inFace m f = .ok (.face f a) ∧
      ∀ A B C, Layout m len f A B C → 0 < (B.sub A).cross (C.sub A) → c.total = 0 ∧
        Bary.toCartesian A B C c = (V2.fromAngle angle).mul (Bary.toCartesian A B C a)) := by
  have edge_case : ∀ (e : ℕ) (c : V2) (h : ℕ), m.heLive (2 * e) → c.x + c.y = 0 → h = eHalfedge e ∨ h = twin (eHalfedge e) → m.heIsInterior h →
      ∃ a, (BVec.edge e c).inFace m (m.heFace h) = .ok (.face (m.heFace h) a) ∧ a.total = 0 ∧ m.heFace h < m.nFFill ∧ (BVec.edge e c).Touches m (m.heFace h) := by
    intro e c h hl hc hh hx
    have hle : m.heLive (eHalfedge e) := hl
    have hlh : m.heLive h := by rcases hh with rfl | rfl; exacts [hle, hv.twin_live _ hle]
    have hT : (BVec.edge e c).Touches m (m.heFace h) := by
      refine ⟨h, hlh, rfl, ?_⟩
      rcases hh with rfl | rfl
      · unfold eHalfedge; omega
      · rw [twin_div]; unfold eHalfedge; omega
    have hlt : m.heFace h < m.nFFill := by unfold heIsInterior faceIsBL at hx; omega
    have hf := hv.face_live _ hlh
    obtain ⟨a, h1, h2, -⟩ := C41_inFace m hv _ hf (htri _ hf hlt) _ hT
    exact ⟨a, h1, h2 hc, hlt, hT⟩
  match u, hu, bu with
  | .vertex v, _, _ => exact ⟨fun _ _ => ⟨rfl, rfl⟩, fun h => absurd rfl (h v), fun h => absurd rfl (h v)⟩
  | .face f c, hu, bu =>
    refine ⟨fun v h => by simp at h, fun _ => ?_, fun _ => Or.inr ?_⟩
    · refine ⟨f, c, _, rfl, hu.2, rfl, by simp [BVec.inFace], ?_⟩
      rintro A B C ⟨h1, h2, h3⟩ hD
      obtain ⟨r1, r2⟩ := C41_rotate90 A B C _ _ _ c h1 h2 h3 hD bu
      exact ⟨r2, r1⟩
    · refine ⟨f, c, _, rfl, hu.2, rfl, by simp [BVec.inFace], ?_⟩
      rintro A B C ⟨h1, h2, h3⟩ hD
      obtain ⟨r1, r2⟩ := C41_rotate A B C _ _ _ c angle h1 h2 h3 hD bu
      exact ⟨r2, r1⟩
  | .edge e c, hu, bu =>
    have hle : m.heLive (eHalfedge e) := hu
    refine ⟨fun v h => by simp at h, fun _ => ?_, fun _ => ?_⟩
    · simp only [BVec.rotate90]
      obtain ⟨h0, e0, d0⟩ : ∃ h0, (if c.x < 0 then eHalfedge e else twin (eHalfedge e)) = h0 ∧ (h0 = eHalfedge e ∨ h0 = twin (eHalfedge e)) := by
        split
        · exact ⟨_, rfl, Or.inl rfl⟩
        · exact ⟨_, rfl, Or.inr rfl⟩
      rw [e0]
      obtain ⟨h1, e1, d1, x1⟩ : ∃ h1, (if m.heIsInterior h0 then h0 else twin h0) = h1 ∧ (h1 = eHalfedge e ∨ h1 = twin (eHalfedge e)) ∧ m.heIsInterior h1 := by
        split
        · exact ⟨_, rfl, d0, by assumption⟩
        · refine ⟨_, rfl, ?_, interior_or_twin hv ?_ (by assumption)⟩
          · rcases d0 with rfl | rfl
            · exact Or.inr rfl
            · left; simp
          · rcases d0 with rfl | rfl; exacts [hle, hv.twin_live _ hle]
      rw [e1]
      obtain ⟨a, a1, a2, a3, a4⟩ := edge_case e c h1 hu bu d1 x1
      rw [a1]
      refine ⟨_, a, _, rfl, a3, a4, a1, ?_⟩
      rintro A B C ⟨h1, h2, h3⟩ hD
      obtain ⟨r1, r2⟩ := C41_rotate90 A B C _ _ _ a h1 h2 h3 hD a2
      exact ⟨r2, r1⟩
    · simp only [BVec.rotate]
      by_cases hpi : BVec.regularizeAngle angle = Real.pi ∨ BVec.regularizeAngle angle = -Real.pi
      · left
        refine ⟨e, c, rfl, ?_, if_pos hpi⟩
        have key : Real.cos angle = Real.cos (BVec.regularizeAngle angle) ∧ Real.sin angle = Real.sin (BVec.regularizeAngle angle) := by
          unfold BVec.regularizeAngle
          rw [mul_comm (2 * Real.pi)]
          exact ⟨(Real.cos_sub_int_mul_two_pi _ _).symm, (Real.sin_sub_int_mul_two_pi _ _).symm⟩
        simp only [V2.fromAngle, V2.mul, key.1, key.2]
        rcases hpi with h | h <;> rw [h] <;> simp
      · rw [if_neg hpi]
        right
        obtain ⟨h0, e0, d0⟩ : ∃ h0, (if c.x < 0 then eHalfedge e else twin (eHalfedge e)) = h0 ∧ (h0 = eHalfedge e ∨ h0 = twin (eHalfedge e)) := by
          split
          · exact ⟨_, rfl, Or.inl rfl⟩
          · exact ⟨_, rfl, Or.inr rfl⟩
        rw [e0]
        generalize BVec.regularizeAngle angle = theta at *
        have l0 : m.heLive h0 := by rcases d0 with rfl | rfl; exacts [hle, hv.twin_live _ hle]
        obtain ⟨h1, e1, d1, x1⟩ : ∃ h1, (if ¬ m.heIsInterior h0 ∧ theta < Real.pi then eHalfedge e
            else if m.eIsBoundary e ∧ m.heIsInterior h0 ∧ theta > Real.pi then eHalfedge e
            else if theta > Real.pi then twin h0 else h0) = h1 ∧ (h1 = eHalfedge e ∨ h1 = twin (eHalfedge e)) ∧ m.heIsInterior h1 := by
          by_cases c1 : ¬ m.heIsInterior h0 ∧ theta < Real.pi
          · rw [if_pos c1]; exact ⟨_, rfl, Or.inl rfl, eh_interior hv hu⟩
          rw [if_neg c1]
          by_cases c2 : m.eIsBoundary e ∧ m.heIsInterior h0 ∧ theta > Real.pi
          · rw [if_pos c2]; exact ⟨_, rfl, Or.inl rfl, eh_interior hv hu⟩
          rw [if_neg c2]
          by_cases c3 : theta > Real.pi
          · rw [if_pos c3]
            refine ⟨_, rfl, ?_, ?_⟩
            · rcases d0 with rfl | rfl
              · exact Or.inr rfl
              · left; simp
            · by_cases x0 : m.heIsInterior h0
              · by_contra x1
                apply c2
                refine ⟨?_, x0, c3⟩
                unfold eIsBoundary
                rcases d0 with rfl | rfl
                · exact x1
                · exact absurd (eh_interior hv hu) (by simpa using x1)
              · exact interior_or_twin hv l0 x0
          · rw [if_neg c3]
            refine ⟨_, rfl, d0, ?_⟩
            by_contra x0
            apply c1
            refine ⟨x0, lt_of_le_of_ne (not_lt.1 c3) (fun h => hpi (Or.inl h))⟩
        rw [e1]
        obtain ⟨a, a1, a2, a3, a4⟩ := edge_case e c h1 hu bu d1 x1
        rw [a1]
        refine ⟨_, a, _, rfl, a3, a4, a1, ?_⟩
        rintro A B C ⟨h1, h2, h3⟩ hD
        obtain ⟨r1, r2⟩ := C41_rotate A B C _ _ _ a angle h1 h2 h3 hD a2
        exact ⟨r2, r1⟩

/-! ### Constructors -/

section ctor
variable {T : Type} [AddCommGroup T] [Module ℝ T]
open SPoint

/-- **C41, vector between points (refutation).** For two points of one edge, `BarycentricVector(pA, pB)` is the negative of the
displacement from `pA` to `pB`. -/
theorem C41_between_edge (m : Mesh) (e : ℕ) (a b : ℝ) :
    ∃ z, BVec.between m (.edge e a) (.edge e b) = .ok z ∧ ∀ (T : Type) [AddCommGroup T] [Module ℝ T] (data : ℕ → T),
      z.denote m data = -(interpolate m data (.edge e b) - interpolate m data (.edge e a)) := by
  refine ⟨.edge e ⟨b - a, a - b⟩, by simp [BVec.between, SPoint.sharedEdge, SPoint.inEdge], fun T _ _ data => ?_⟩
  simp only [BVec.denote, interpolate, eHalfedge, twin_two_mul]
  module

/-- C41 fails for the vector between two points of an edge. -/
theorem C41_fails : ¬ ∀ (m : Mesh) (pA pB : SPoint) (z : BVec) (data : ℕ → ℝ), m.Valid → TriMesh m → pA.On m → pB.On m →
    BVec.between m pA pB = .ok z → z.denote m data = interpolate m data pB - interpolate m data pA := by
  intro h
  obtain ⟨z, h1, h2⟩ := C41_between_edge tetra 0 0 1
  have := h tetra _ _ z (fun i => (i : ℝ)) tetra_valid tetra_tri (by show tetra.heLive _; decide +kernel) (by show tetra.heLive _; decide +kernel) h1
  rw [h2] at this
  have e1 : tetra.heVertex (2 * 0 + 1) = 1 := by decide +kernel
  have e2 : tetra.heVertex (2 * 0) = 0 := by decide +kernel
  simp only [interpolate, eHalfedge, twin_two_mul, e1, e2] at this
  norm_num at this

/-- The point is a vertex of `e` or a point of `e`. -/
def SPoint.EndOf (m : Mesh) (e : ℕ) : SPoint → Prop
  | .vertex v => v = m.heVertex (2 * e) ∨ v = m.heVertex (2 * e + 1)
  | .edge e' _ => e' = e
  | .face _ _ => False

/-- **C41, vector between a vertex and a point of an edge (refutation).** `BarycentricVector(v, pB)` for the tail `v` of an edge and
the point `pB` at parameter `t` has length `1 - t` of the edge where the displacement has length `t`. -/
theorem C41_between_mixed (m : Mesh) (hv : m.Valid) (e : ℕ) (hl : m.heLive (2 * e)) (t : ℝ) :
    ∃ z, BVec.between m (.vertex (m.heVertex (2 * e))) (.edge e t) = .ok z ∧ ∀ (T : Type) [AddCommGroup T] [Module ℝ T] (data : ℕ → T),
      z.denote m data = (1 - t) • (data (m.heVertex (2 * e + 1)) - data (m.heVertex (2 * e))) ∧
      interpolate m data (.edge e t) - interpolate m data (.vertex (m.heVertex (2 * e))) = t • (data (m.heVertex (2 * e + 1)) - data (m.heVertex (2 * e))) := by
  obtain ⟨l, -, -, g2, -, -, -, g3, -⟩ := C49_vertex_outgoing m hv _ (hv.vertex_live _ hl)
  have hf : (l.map (fun i => i / 2)).find? (fun e' => e' == e) = some e := by
    cases h : (l.map (fun i => i / 2)).find? (fun e' => e' == e) with
    | none =>
      exfalso
      rw [List.find?_eq_none] at h
      exact h e (List.mem_map.2 ⟨2 * e, (g2 _).2 ⟨hl, rfl⟩, by omega⟩) (by simp)
    | some x =>
      have := List.find?_some h
      simp only [beq_iff_eq] at this
      rw [this]
  have h1 : SPoint.inEdge m (.vertex (m.heVertex (2 * e))) e = .ok (.edge e 1) := by simp [SPoint.inEdge, eHalfedge]
  have h2 : SPoint.inEdge m (.edge e t) e = .ok (.edge e t) := by simp [SPoint.inEdge]
  refine ⟨.edge e ⟨t - 1, 1 - t⟩, by simp only [BVec.between, SPoint.sharedEdge, g3, hf, h1, h2], fun T _ _ data => ⟨?_, ?_⟩⟩
  · simp only [BVec.denote]; module
  · simp only [interpolate, eHalfedge, twin_two_mul]; module

theorem SPoint.sharedEdge_ok (hv : m.Valid) (p q : SPoint) (hp : p.On m) (hq : q.On m) :
    ∃ o, sharedEdge m p q = .ok o ∧ (∀ e, o = some e → m.heLive (2 * e) ∧ p.EndOf m e ∧ q.EndOf m e) := by
  have ve : ∀ v e, m.vLive v → m.heLive (2 * e) → ∃ l, m.navVertexEdges v = .ok l ∧ ∀ x, l.find? (fun e' => e' == e) = some x →
      x = e ∧ (v = m.heVertex (2 * e) ∨ v = m.heVertex (2 * e + 1)) := by
    intro v e hvl hl
    obtain ⟨l, -, -, g2, -, -, -, g3, -⟩ := C49_vertex_outgoing m hv v hvl
    refine ⟨_, g3, ?_⟩
    intro x hx
    have h1 := List.find?_some hx
    simp only [beq_iff_eq] at h1
    have h2 := List.mem_of_find?_eq_some hx
    obtain ⟨h, h3, h4⟩ := List.mem_map.1 h2
    have h5 := ((g2 h).1 h3).2
    refine ⟨h1, ?_⟩
    have : h = 2 * e ∨ h = 2 * e + 1 := by omega
    rcases this with rfl | rfl
    · exact Or.inl h5.symm
    · exact Or.inr h5.symm
  match p, q, hp, hq with
  | .edge e _, .edge e' _, hp, hq =>
    refine ⟨_, rfl, ?_⟩
    intro x hx
    split at hx <;> simp at hx
    subst hx; exact ⟨hp, rfl, by show e' = e; symm; assumption⟩
  | .edge e _, .vertex v, hp, hq =>
    obtain ⟨l, h1, h2⟩ := ve v e hq hp
    refine ⟨_, by simp only [sharedEdge, h1]; rfl, ?_⟩
    intro x hx
    obtain ⟨rfl, h3⟩ := h2 x hx
    exact ⟨hp, rfl, h3⟩
  | .vertex v, .edge e _, hp, hq =>
    obtain ⟨l, h1, h2⟩ := ve v e hp hq
    refine ⟨_, by simp only [sharedEdge, h1]; rfl, ?_⟩
    intro x hx
    obtain ⟨rfl, h3⟩ := h2 x hx
    exact ⟨hq, h3, rfl⟩
  | .vertex v, .vertex w, hp, hq =>
    obtain ⟨l, h1, h2, -⟩ := find_edge (w := w) hv hp
    refine ⟨_, by simp only [sharedEdge, h1]; rfl, ?_⟩
    intro x hx
    obtain ⟨h3, h4⟩ := h2 x hx
    refine ⟨h3, ?_⟩
    rcases h4 with ⟨a, b⟩ | ⟨a, b⟩
    · exact ⟨Or.inl a, Or.inr b⟩
    · exact ⟨Or.inr a, Or.inl b⟩
  | .face _ _, .face _ _, _, _ => exact ⟨none, rfl, by simp⟩
  | .face _ _, .edge _ _, _, _ => exact ⟨none, rfl, by simp⟩
  | .face _ _, .vertex _, _, _ => exact ⟨none, rfl, by simp⟩
  | .edge _ _, .face _ _, _, _ => exact ⟨none, rfl, by simp⟩
  | .vertex _, .face _ _, _, _ => exact ⟨none, rfl, by simp⟩

/-- **C41, vector between points (partial).** The vector from `pA` to `pB` is the displacement from `pA` to `pB` if both are
vertices, or if no edge contains both; it throws if no face contains both. Missing: two points of which one is inside an edge that
contains the other (`C41_between_edge`, `C41_between_mixed`: the result is wrong). -/
theorem C41_between_partial (m : Mesh) (hv : m.Valid) (htri : TriMesh m) (pA pB : SPoint) (hA : pA.On m) (hB : pB.On m)
    (hgood : (∃ v w, pA = .vertex v ∧ pB = .vertex w) ∨ ∀ e, m.heLive (2 * e) → ¬ (pA.EndOf m e ∧ pB.EndOf m e)) :
    ((∃ f, f < m.nFFill ∧ pA.Touches m f ∧ pB.Touches m f) → ∃ z, BVec.between m pA pB = .ok z ∧
      ∀ (T : Type) [AddCommGroup T] [Module ℝ T] (data : ℕ → T), z.denote m data = interpolate m data pB - interpolate m data pA) ∧
    ((¬ ∃ f, f < m.nFFill ∧ pA.Touches m f ∧ pB.Touches m f) → BVec.between m pA pB = .error .throw) := by
  have faceCase : BVec.betweenInFace m pA pB = BVec.between m pA pB →
    ((∃ f, f < m.nFFill ∧ pA.Touches m f ∧ pB.Touches m f) → ∃ z, BVec.between m pA pB = .ok z ∧
      ∀ (T : Type) [AddCommGroup T] [Module ℝ T] (data : ℕ → T), z.denote m data = interpolate m data pB - interpolate m data pA) ∧
    ((¬ ∃ f, f < m.nFFill ∧ pA.Touches m f ∧ pB.Touches m f) → BVec.between m pA pB = .error .throw) := by
    intro hb
    rw [← hb]
    unfold BVec.betweenInFace
    obtain ⟨o, k1, k2, k3⟩ := SPoint.sharedFace_ok hv pA pB hA hB
    rw [k1]
    match o, k2, k3 with
    | none, _, k3 =>
      refine ⟨?_, fun _ => rfl⟩
      rintro ⟨f, hf, h⟩
      exact absurd h (k3 rfl f hf)
    | some f, k2, _ =>
      obtain ⟨hf, hlt, tA, tB⟩ := k2 f rfl
      obtain ⟨a, a1, a2⟩ := (C40_inFace m hv f hf (htri f hf hlt) pA).1 tA (by rintro e t rfl; exact hA)
      obtain ⟨b, b1, b2⟩ := (C40_inFace m hv f hf (htri f hf hlt) pB).1 tB (by rintro e t rfl; exact hB)
      simp only [a1, b1]
      refine ⟨fun _ => ⟨_, rfl, fun T _ _ data => ?_⟩, fun hn => absurd ⟨f, hlt, tA, tB⟩ hn⟩
      rw [← a2, ← b2]
      simp only [BVec.denote, interpolate, V3.sub]
      module
  obtain ⟨o, g1, g2⟩ := SPoint.sharedEdge_ok hv pA pB hA hB
  rcases hgood with ⟨v, w, rfl, rfl⟩ | hgood
  · by_cases hvw : v = w
    · subst hvw
      have hb : BVec.between m (.vertex v) (.vertex v) = .ok (.vertex v) := by simp [BVec.between]
      refine ⟨fun _ => ⟨_, hb, fun T _ _ data => by simp [BVec.denote]⟩, fun hn => ?_⟩
      obtain ⟨hl, e⟩ := hv.v_he v hA
      exact absurd ⟨m.heFace (m.vHalfedge v), Valid.face_lt (vHalfedge_int hv hA), ⟨_, hl, rfl, e⟩, ⟨_, hl, rfl, e⟩⟩ hn
    · match o, g1, g2 with
      | none, g1, _ =>
        apply faceCase
        simp only [BVec.between, if_neg hvw, g1]
      | some e, g1, g2 =>
        obtain ⟨hl, hAe, hBe⟩ := g2 e rfl
        have hl1 : m.heLive (2 * e + 1) := by have := (live_pair hv hl).2; rwa [show 2 * e / 2 = e by omega] at this
        have ht := tip_eq hv hl
        have hlt : m.heFace (2 * e) < m.nFFill := Valid.face_lt (hv.edge_int e hl)
        have tch : ∀ x, (x = m.heVertex (2 * e) ∨ x = m.heVertex (2 * e + 1)) → (SPoint.vertex x).Touches m (m.heFace (2 * e)) := by
          rintro x (rfl | rfl)
          · exact ⟨2 * e, hl, rfl, rfl⟩
          · exact ⟨m.heNext (2 * e), hv.next_live _ hl, hv.face_next hl, by rw [hv.vertex_next hl, twin_two_mul]⟩
        have hdir : (v = m.heVertex (2 * e) ∧ w = m.heVertex (2 * e + 1)) ∨ (v = m.heVertex (2 * e + 1) ∧ w = m.heVertex (2 * e)) := by
          rcases hAe with h | h <;> rcases hBe with h' | h'
          · exact absurd (h.trans h'.symm) hvw
          · exact Or.inl ⟨h, h'⟩
          · exact Or.inr ⟨h, h'⟩
          · exact absurd (h.trans h'.symm) hvw
        refine ⟨fun _ => ?_, fun hn => absurd ⟨_, hlt, tch v hAe, tch w hBe⟩ hn⟩
        rcases hdir with ⟨rfl, rfl⟩ | ⟨rfl, rfl⟩
        · have i1 : SPoint.inEdge m (.vertex (m.heVertex (2 * e))) e = .ok (.edge e 1) := by simp [SPoint.inEdge, eHalfedge]
          have i2 : SPoint.inEdge m (.vertex (m.heVertex (2 * e + 1))) e = .ok (.edge e 0) := by
            simp only [SPoint.inEdge, eHalfedge, ht, if_neg (Ne.symm hvw), if_true]
          refine ⟨_, by simp only [BVec.between, if_neg hvw, g1, i1, i2]; rfl, fun T _ _ data => ?_⟩
          simp only [BVec.denote, interpolate]; module
        · have i1 : SPoint.inEdge m (.vertex (m.heVertex (2 * e))) e = .ok (.edge e 1) := by simp [SPoint.inEdge, eHalfedge]
          have i2 : SPoint.inEdge m (.vertex (m.heVertex (2 * e + 1))) e = .ok (.edge e 0) := by
            simp only [SPoint.inEdge, eHalfedge, ht, if_neg hvw, if_true]
          refine ⟨_, by simp only [BVec.between, if_neg hvw, g1, i1, i2]; rfl, fun T _ _ data => ?_⟩
          simp only [BVec.denote, interpolate]; module
  · match o, g1, g2 with
    | some e, _, g2 =>
      obtain ⟨hl, h⟩ := g2 e rfl
      exact absurd h (hgood e hl)
    | none, g1, _ =>
      apply faceCase
      match pA, pB, hgood, hA, g1 with
      | .vertex v, .vertex w, hgood, hA, g1 =>
        have hvw : v ≠ w := by
          rintro rfl
          obtain ⟨hl, e⟩ := hv.v_he v hA
          have := (live_pair hv hl).1
          refine hgood _ this ⟨?_, ?_⟩ <;>
          · rcases Nat.mod_two_eq_zero_or_one (m.vHalfedge v) with h | h
            · left; rw [show 2 * (m.vHalfedge v / 2) = m.vHalfedge v by omega]; exact e.symm
            · right; rw [show 2 * (m.vHalfedge v / 2) + 1 = m.vHalfedge v by omega]; exact e.symm
        simp only [BVec.between, if_neg hvw, g1]
      | .vertex v, .edge _ _, _, _, g1 => simp only [BVec.between, g1]
      | .vertex v, .face _ _, _, _, g1 => simp only [BVec.between, g1]
      | .edge _ _, _, _, _, g1 => simp only [BVec.between, g1]
      | .face _ _, _, _, _, g1 => simp only [BVec.between, g1]

/-- A vertex and a point of the opposite edge of a triangle. -/
example : ∃ v e, (SPoint.vertex v).On square ∧ (SPoint.edge e (1 / 3)).On square ∧ ¬ ((SPoint.vertex v).EndOf square e) ∧
    ∃ f, f < square.nFFill ∧ (SPoint.vertex v).Touches square f ∧ (SPoint.edge e (1 / 3)).Touches square f := by
  refine ⟨square.heVertex (square.heNext (square.heNext (square.fHalfedge 0))), square.fHalfedge 0 / 2, ?_, ?_, ?_, 0, by decide +kernel, ?_, ?_⟩
  · show square.vLive _; decide +kernel
  · show square.heLive _; decide +kernel
  · rintro (h | h) <;> revert h <;> decide +kernel
  · exact ⟨square.heNext (square.heNext (square.fHalfedge 0)), by decide +kernel, by decide +kernel, rfl⟩
  · exact ⟨square.fHalfedge 0, by decide +kernel, by decide +kernel, rfl⟩

/-- **C41, halfedge constructor.** `BarycentricVector(he, f)` is the displacement from the tail to the tip of `he`, if the edge of
`he` is a side of the triangle `f`. -/
theorem C41_ofHalfedge (m : Mesh) (hv : m.Valid) (he f : ℕ) (hl : m.heLive he) (hf : m.fLive f) (ht : m.fIsTriangle f)
    (hside : ∃ h, m.heLive h ∧ m.heFace h = f ∧ h / 2 = he / 2) :
    ∃ c, BVec.ofHalfedge m he f = .ok (.face f c) ∧ c.total = 0 ∧
      ∀ (T : Type) [AddCommGroup T] [Module ℝ T] (data : ℕ → T), (BVec.face f c).denote m data = data (m.tip he) - data (m.heVertex he) := by
  obtain ⟨l0, l1, l2, f0, f1, f2⟩ := hv.tri_of hf ht
  -- the sign is that of the halfedge found
  have sign : ∀ h, m.heLive h → h / 2 = he / 2 → ∀ s : ℝ, s = (if m.heVertex h = m.heVertex he ∧ m.tip h = m.tip he then 1 else -1) →
      ∀ (T : Type) [AddCommGroup T] [Module ℝ T] (data : ℕ → T),
        (-s) • data (m.heVertex h) + s • data (m.heVertex (m.heNext h)) = data (m.tip he) - data (m.heVertex he) := by
    intro h hh hhe s hs T _ _ data
    have : h = he ∨ h = twin he := by
      have := twin_div he
      have := twin_ne he
      rcases Nat.mod_two_eq_zero_or_one h with a | a <;> rcases Nat.mod_two_eq_zero_or_one he with b | b
      · left; omega
      · right; rw [show he = 2 * (he / 2) + 1 by omega, twin_two_mul_add]; omega
      · right; rw [show he = 2 * (he / 2) by omega, twin_two_mul]; omega
      · left; omega
    rcases this with rfl | rfl
    · rw [if_pos ⟨rfl, rfl⟩] at hs
      rw [hs]; unfold tip; module
    · have e1 : m.tip he = m.heVertex (twin he) := hv.vertex_next hl
      have e2 : m.heVertex (m.heNext (twin he)) = m.heVertex he := by rw [hv.vertex_next hh, twin_twin]
      have e3 : m.tip (twin he) = m.heVertex he := e2
      rw [e2, e1]
      by_cases hc : m.heVertex (twin he) = m.heVertex he ∧ m.tip (twin he) = m.tip he
      · rw [hc.1]; module
      · rw [if_neg hc] at hs; rw [hs]; module
  unfold BVec.ofHalfedge
  rw [hv.tri_list hf ht]
  simp only [heEdge]
  by_cases c0 : m.fHalfedge f / 2 = he / 2
  · rw [show [m.fHalfedge f, m.heNext (m.fHalfedge f), m.heNext (m.heNext (m.fHalfedge f))].findIdx (fun h => h / 2 == he / 2) = 0 by
      simp [List.findIdx_cons, c0]]
    refine ⟨_, rfl, ?_, fun T _ _ data => ?_⟩
    · simp [V3.total, V3.smul, V3.set]; split_ifs <;> norm_num
    · rw [← sign _ l0 c0 _ rfl T data]
      simp [BVec.denote, V3.smul, V3.set]; split_ifs <;> simp
  by_cases c1 : m.heNext (m.fHalfedge f) / 2 = he / 2
  · rw [show [m.fHalfedge f, m.heNext (m.fHalfedge f), m.heNext (m.heNext (m.fHalfedge f))].findIdx (fun h => h / 2 == he / 2) = 1 by
      simp [List.findIdx_cons, beq_eq_false_iff_ne.2 c0, c1]]
    refine ⟨_, rfl, ?_, fun T _ _ data => ?_⟩
    · simp [V3.total, V3.smul, V3.set]; split_ifs <;> norm_num
    · rw [← sign _ l1 c1 _ rfl T data]
      simp [BVec.denote, V3.smul, V3.set]; split_ifs <;> simp
  have c2 : m.heNext (m.heNext (m.fHalfedge f)) / 2 = he / 2 := by
    obtain ⟨h, hh, hhf, hhe⟩ := hside
    rcases hv.tri_cases hf ht hh hhf with h' | h' | h'
    · rw [h'] at hhe; exact absurd hhe c0
    · rw [h'] at hhe; exact absurd hhe c1
    · rw [h'] at hhe; exact hhe
  rw [show [m.fHalfedge f, m.heNext (m.fHalfedge f), m.heNext (m.heNext (m.fHalfedge f))].findIdx (fun h => h / 2 == he / 2) = 2 by
      simp [List.findIdx_cons, beq_eq_false_iff_ne.2 c0, beq_eq_false_iff_ne.2 c1, c2]]
  refine ⟨_, rfl, ?_, fun T _ _ data => ?_⟩
  · simp [V3.total, V3.smul, V3.set]; split_ifs <;> norm_num
  · rw [← sign _ l2 c2 _ rfl T data]
    have : m.heNext (m.heNext (m.heNext (m.fHalfedge f))) = m.fHalfedge f := ht.symm
    simp [BVec.denote, V3.smul, V3.set, this]
    split_ifs <;> simp [add_comm]

example : tetra.heLive 3 ∧ tetra.fLive 0 ∧ tetra.fIsTriangle 0 ∧ ∃ h, tetra.heLive h ∧ tetra.heFace h = 0 ∧ h / 2 = 3 / 2 :=
  ⟨by decide +kernel, by decide +kernel, by decide +kernel, 2, by decide +kernel⟩

end ctor
end GC
