import Verif.DelaunayGeom
import Verif.FlipLemmas
import Verif.MeshCollapseValid
import Verif.Props.Nav

/-! # Delaunay flipping: effect of one flip, and the loop -/

namespace GC
namespace Mesh

/-- All interior faces are triangles. -/
def TriFaces (m : Mesh) : Prop := ∀ i, m.heLive i → ¬ m.ext i → m.heNext (m.heNext (m.heNext i)) = i

/-- The three edge lengths around each interior face, starting from any of its halfedges, satisfy `P`. -/
def EachTri (m : Mesh) (len : ℕ → ℝ) (P : ℝ → ℝ → ℝ → Prop) : Prop := ∀ i, m.heLive i → ¬ m.ext i →
  P (len (heEdge i)) (len (heEdge (m.heNext i))) (len (heEdge (m.heNext (m.heNext i))))

/-- The edge lengths of every interior face are those of a nondegenerate triangle. -/
def Metric (m : Mesh) (len : ℕ → ℝ) : Prop := m.EachTri len TriOK

theorem not_bdy_iff {m : Mesh} {e : ℕ} : ¬ m.eIsBoundary e ↔ ¬ m.ext (twin (eHalfedge e)) := by
  unfold eIsBoundary heIsInterior faceIsBL ext; rw [not_not]

theorem heInterior_iff {m : Mesh} {i : ℕ} : m.heIsInterior i ↔ ¬ m.ext i := by
  unfold heIsInterior faceIsBL ext; rfl

theorem heEdge_eq_iff {i e : ℕ} : heEdge i = e ↔ i = eHalfedge e ∨ i = twin (eHalfedge e) := by
  have : twin (eHalfedge e) = 2 * e + 1 := twin_two_mul e
  rw [this]; unfold heEdge eHalfedge; omega

/-- The code's weight of an interior halfedge. -/
theorem cotw_he {m : Mesh} (hv : m.Valid) (ht : m.TriFaces) (len : ℕ → ℝ) {i : ℕ} (hi : m.heLive i) (hx : ¬ m.ext i) :
    m.halfedgeCotanWeight len i =
      cotw (len (heEdge i)) (len (heEdge (m.heNext i))) (len (heEdge (m.heNext (m.heNext i)))) := by
  obtain ⟨l0, e0⟩ := hv.f_he _ (hv.face_live i hi)
  have t := ht i hi hx
  unfold halfedgeCotanWeight cotw
  rw [if_pos (heInterior_iff.2 hx)]
  have : m.faceArea len (m.heFace i) =
      triangleArea (len (heEdge i)) (len (heEdge (m.heNext i))) (len (heEdge (m.heNext (m.heNext i)))) := by
    unfold faceArea
    rcases hv.tri_mem hi l0 t e0 with h | h | h
    · rw [h]
    · simp only [h, t]; rw [← triangleArea_rot]
    · simp only [h, t]; rw [← triangleArea_rot, ← triangleArea_rot]
  rw [this]

/-- What a flip of `a1` does to the halfedges. -/
structure FlipView (m m' : Mesh) (a1 a2 a3 b1 b2 b3 : ℕ) : Prop where
  six : Six m a1 a2 a3 b1 b2 b3
  arr : FlipArrays m m' a1 a2 a3 b1 b2 b3
  live : ∀ i, m'.heLive i ↔ m.heLive i
  ext : ∀ i, m.heLive i → (m'.ext i ↔ m.ext i)
  int_a : ¬ m.ext a1
  int_b : ¬ m.ext b1
  out : ∀ i, m.heLive i → i ≠ a1 → i ≠ a2 → i ≠ a3 → i ≠ b1 → i ≠ b2 → i ≠ b3 →
    m'.heNext i = m.heNext i ∧ m'.heNext (m.heNext i) = m.heNext (m.heNext i) ∧
    m'.heNext (m.heNext (m.heNext i)) = m.heNext (m.heNext (m.heNext i)) ∧
    i ≠ a1 ∧ i ≠ b1 ∧ m.heNext i ≠ a1 ∧ m.heNext i ≠ b1 ∧ m.heNext (m.heNext i) ≠ a1 ∧ m.heNext (m.heNext i) ≠ b1

theorem flipView {m : Mesh} (hv : m.Valid) {a1 : ℕ} (h : FlipOK m a1) :
    FlipView m (m.flipCore a1) a1 (m.heNext a1) (m.heNext (m.heNext a1)) (twin a1) (m.heNext (twin a1))
      (m.heNext (m.heNext (twin a1))) := by
  have s := six_of hv h
  have F := flipArrays s
  have hl : ∀ i, (m.flipCore a1).heLive i ↔ m.heLive i := by
    intro i; unfold heLive; rw [flip_heLive hv s F rfl i]; rfl
  set a2 := m.heNext a1 with ha2
  set a3 := m.heNext a2 with ha3
  set b1 := twin a1 with hb1
  set b2 := m.heNext b1 with hb2
  set b3 := m.heNext b2 with hb3
  have next_out : ∀ i, m.heLive i → i ≠ a1 → i ≠ a2 → i ≠ a3 → i ≠ b1 → i ≠ b2 → i ≠ b3 →
      m.heNext i ≠ a1 ∧ m.heNext i ≠ a2 ∧ m.heNext i ≠ a3 ∧ m.heNext i ≠ b1 ∧ m.heNext i ≠ b2 ∧ m.heNext i ≠ b3 := by
    intro i hi h1 h2 h3 h4 h5 h6
    refine ⟨fun c => h3 ?_, fun c => h1 ?_, fun c => h2 ?_, fun c => h6 ?_, fun c => h4 ?_, fun c => h5 ?_⟩
    · exact hv.next_inj hi s.la3 (by rw [c, s.na3])
    · exact hv.next_inj hi s.la1 (by rw [c, s.na1])
    · exact hv.next_inj hi s.la2 (by rw [c, s.na2])
    · exact hv.next_inj hi s.lb3 (by rw [c, s.nb3])
    · exact hv.next_inj hi s.lb1 (by rw [c, s.nb1])
    · exact hv.next_inj hi s.lb2 (by rw [c, s.nb2])
  refine ⟨s, F, hl, ?_, h.int_a, h.int_b, ?_⟩
  · intro i hi
    have fill : (m.flipCore a1).nFFill = m.nFFill := rfl
    have f3 : m.heFace a3 = m.heFace a1 := by rw [ha3, hv.face_next s.la2, ha2, hv.face_next s.la1]
    have g3 : m.heFace b3 = m.heFace b1 := by rw [hb3, hv.face_next s.lb2, hb2, hv.face_next s.lb1]
    have ia := h.int_a; have ib := h.int_b
    unfold Mesh.ext at ia ib ⊢
    rw [fill]
    by_cases c1 : i = a3
    · rw [c1, F.fa3, f3]; exact iff_of_false ib ia
    by_cases c2 : i = b3
    · rw [c2, F.fb3, g3]; exact iff_of_false ia ib
    rw [F.fo i c1 c2]
  · intro i hi h1 h2 h3 h4 h5 h6
    obtain ⟨n1, n2, n3, n4, n5, n6⟩ := next_out i hi h1 h2 h3 h4 h5 h6
    obtain ⟨k1, k2, k3, k4, k5, k6⟩ := next_out _ (hv.next_live _ hi) n1 n2 n3 n4 n5 n6
    refine ⟨F.no i h1 h2 h3 h4 h5 h6, F.no _ n1 n2 n3 n4 n5 n6, F.no _ k1 k2 k3 k4 k5 k6, h1, h4, n1, n4, k1, k4⟩

variable {m m' : Mesh} {a1 a2 a3 b1 b2 b3 : ℕ}

theorem FlipView.triFaces (V : FlipView m m' a1 a2 a3 b1 b2 b3) (ht : m.TriFaces) : m'.TriFaces := by
  have F := V.arr
  intro i hi hx
  have li := (V.live i).1 hi
  by_cases h1 : i = a1
  · rw [h1, F.na1, F.nb3, F.na2]
  by_cases h2 : i = a2
  · rw [h2, F.na2, F.na1, F.nb3]
  by_cases h3 : i = a3
  · rw [h3, F.na3, F.nb2, F.nb1]
  by_cases h4 : i = b1
  · rw [h4, F.nb1, F.na3, F.nb2]
  by_cases h5 : i = b2
  · rw [h5, F.nb2, F.nb1, F.na3]
  by_cases h6 : i = b3
  · rw [h6, F.nb3, F.na2, F.na1]
  obtain ⟨e1, e2, e3, -⟩ := V.out i li h1 h2 h3 h4 h5 h6
  rw [e1, e2, e3]
  exact ht i li (by rwa [← V.ext i li])

/-- A property of all triangles after a flip: it must hold of the two new ones. -/
theorem FlipView.eachTri (V : FlipView m m' a1 a2 a3 b1 b2 b3) {e : ℕ} (ha : a1 = eHalfedge e)
    {len len' : ℕ → ℝ} (ho : ∀ i, i ≠ e → len' i = len i) {P : ℝ → ℝ → ℝ → Prop} (rot : ∀ a b c, P a b c → P b c a)
    (hP : m.EachTri len P) (p1 : P (len' e) (len (heEdge b3)) (len (heEdge a2)))
    (p2 : P (len' e) (len (heEdge a3)) (len (heEdge b2))) : m'.EachTri len' P := by
  have F := V.arr
  have s := V.six
  have he : ∀ i, i ≠ a1 → i ≠ b1 → len' (heEdge i) = len (heEdge i) := by
    intro i h1 h2
    refine ho _ fun c => ?_
    rcases heEdge_eq_iff.1 c with c | c
    · exact h1 (by rw [c, ha])
    · exact h2 (by rw [c, s.tb, ha])
  have ea : heEdge a1 = e := heEdge_eq_iff.2 (Or.inl ha)
  have eb : heEdge b1 = e := heEdge_eq_iff.2 (Or.inr (by rw [s.tb, ha]))
  have q2 := he a2 s.d12.symm s.x21
  have q3 := he a3 s.d13.symm s.x31
  have r2 := he b2 s.x12.symm s.e12.symm
  have r3 := he b3 s.x13.symm s.e13.symm
  intro i hi hx
  have li := (V.live i).1 hi
  by_cases h1 : i = a1
  · rw [h1, F.na1, F.nb3, ea, r3, q2]; exact p1
  by_cases h2 : i = a2
  · rw [h2, F.na2, F.na1, ea, r3, q2]; exact rot _ _ _ (rot _ _ _ p1)
  by_cases h6 : i = b3
  · rw [h6, F.nb3, F.na2, ea, r3, q2]; exact rot _ _ _ p1
  by_cases h4 : i = b1
  · rw [h4, F.nb1, F.na3, eb, q3, r2]; exact p2
  by_cases h3 : i = a3
  · rw [h3, F.na3, F.nb2, eb, q3, r2]; exact rot _ _ _ p2
  by_cases h5 : i = b2
  · rw [h5, F.nb2, F.nb1, eb, q3, r2]; exact rot _ _ _ (rot _ _ _ p2)
  obtain ⟨e1, e2, -, n1, n2, n3, n4, n5, n6⟩ := V.out i li h1 h2 h3 h4 h5 h6
  rw [e1, e2, he _ n1 n2, he _ n3 n4, he _ n5 n6]
  exact hP i li (by rwa [← V.ext i li])

/-- The edges around the flipped one. -/
theorem FlipView.neigh (V : FlipView m m' a1 a2 a3 b1 b2 b3) {e : ℕ} (ha : a1 = eHalfedge e) :
    m'.neighEdges e = [heEdge b3, heEdge a2, heEdge a3, heEdge b2] := by
  have F := V.arr
  simp only [neighEdges, ← ha, ← V.six.tb, F.na1, F.nb3, F.nb1, F.na3]

/-- An edge that is neither flipped nor next to the flipped one has the same triangles as before. -/
theorem FlipView.far (V : FlipView m m' a1 a2 a3 b1 b2 b3) {e : ℕ} (ha : a1 = eHalfedge e)
    {len len' : ℕ → ℝ} (ho : ∀ i, i ≠ e → len' i = len i) {x : ℕ} (hx : m.heLive (eHalfedge x)) (hne : x ≠ e)
    (hn : x ∉ m'.neighEdges e) {i : ℕ} (hl : m.heLive i) (hi : heEdge i = x) :
    len' (heEdge i) = len (heEdge i) ∧ len' (heEdge (m'.heNext i)) = len (heEdge (m.heNext i)) ∧
    len' (heEdge (m'.heNext (m'.heNext i))) = len (heEdge (m.heNext (m.heNext i))) := by
  have s := V.six
  rw [V.neigh ha] at hn
  simp only [List.mem_cons, List.not_mem_nil, or_false, not_or] at hn
  obtain ⟨n1, n2, n3, n4⟩ := hn
  have ea : heEdge a1 = e := heEdge_eq_iff.2 (Or.inl ha)
  have eb : heEdge b1 = e := heEdge_eq_iff.2 (Or.inr (by rw [s.tb, ha]))
  have he : ∀ i, i ≠ a1 → i ≠ b1 → len' (heEdge i) = len (heEdge i) := by
    intro i h1 h2
    refine ho _ fun c => ?_
    rcases heEdge_eq_iff.1 c with c | c
    · exact h1 (by rw [c, ha])
    · exact h2 (by rw [c, s.tb, ha])
  obtain ⟨e1, e2, -, g1, g2, g3, g4, g5, g6⟩ := V.out i hl (by rintro rfl; exact hne (by rw [← hi, ea]))
    (by rintro rfl; exact n2 hi.symm) (by rintro rfl; exact n3 hi.symm) (by rintro rfl; exact hne (by rw [← hi, eb]))
    (by rintro rfl; exact n4 hi.symm) (by rintro rfl; exact n1 hi.symm)
  rw [e1, e2]
  exact ⟨he _ g1 g2, he _ g3 g4, he _ g5 g6⟩

/-! ### The queue -/

theorem pushEdges_spec (es : List ℕ) : ∀ (q : List ℕ) (inQ : ℕ → Bool),
    (∀ x, (pushEdges es q inQ).2 x = true ↔ inQ x = true ∨ x ∈ es) ∧
    (∀ x, x ∈ (pushEdges es q inQ).1 → x ∈ q ∨ x ∈ es) ∧
    (∀ x, x ∈ q → x ∈ (pushEdges es q inQ).1) ∧
    (∀ x, x ∈ es → inQ x = false → x ∈ (pushEdges es q inQ).1) := by
  induction es with
  | nil => intro q inQ; simp [pushEdges]
  | cons e es ih =>
    intro q inQ
    by_cases h : inQ e = true
    · have : pushEdges (e :: es) q inQ = pushEdges es q inQ := by simp [pushEdges, h]
      rw [this]
      obtain ⟨h1, h2, h3, h4⟩ := ih q inQ
      refine ⟨fun x => ?_, fun x hx => ?_, h3, fun x hx hf => ?_⟩
      · rw [h1]
        constructor
        · rintro (h | h)
          · exact Or.inl h
          · exact Or.inr (List.mem_cons_of_mem _ h)
        · rintro (h' | h')
          · exact Or.inl h'
          · rcases List.mem_cons.1 h' with rfl | h'
            · exact Or.inl h
            · exact Or.inr h'
      · rcases h2 x hx with h | h
        · exact Or.inl h
        · exact Or.inr (List.mem_cons_of_mem _ h)
      · rcases List.mem_cons.1 hx with rfl | h'
        · rw [h] at hf; exact absurd hf (by decide)
        · exact h4 x h' hf
    · have e' : pushEdges (e :: es) q inQ = pushEdges es (q ++ [e]) (fun i => if i = e then true else inQ i) := by
        simp [pushEdges, h]
      rw [e']
      obtain ⟨h1, h2, h3, h4⟩ := ih (q ++ [e]) (fun i => if i = e then true else inQ i)
      refine ⟨fun x => ?_, fun x hx => ?_, fun x hx => h3 x (by simp [hx]), fun x hx hf => ?_⟩
      · rw [h1]
        by_cases hx : x = e
        · subst hx; simp
        · simp [hx]
      · rcases h2 x hx with h | h
        · simp only [List.mem_append, List.mem_singleton] at h
          rcases h with h | h
          · exact Or.inl h
          · exact Or.inr (by simp [h])
        · exact Or.inr (List.mem_cons_of_mem _ h)
      · by_cases hx' : x = e
        · exact h3 x (by simp [hx'])
        · rcases List.mem_cons.1 hx with h' | h'
          · exact absurd h' hx'
          · exact h4 x h' (by simp [hx', hf])

/-- `k` steps of the relation `R`. -/
inductive Chain {α : Type} (R : α → α → Prop) : ℕ → α → α → Prop
  | nil (a) : Chain R 0 a a
  | cons {k a b c} : R a b → Chain R k b c → Chain R (k + 1) a c

/-- What a `flipEdgeIfNotDelaunay` must do for the loop to work: `P` is the invariant of the triangulation, `R` relates
the triangulations before and after a flip, `good` says that an edge needs no flip. -/
structure StepSpec (step : Mesh → (ℕ → ℝ) → ℕ → FlipRes) (P : Mesh → (ℕ → ℝ) → Prop)
    (R : Mesh × (ℕ → ℝ) → Mesh × (ℕ → ℝ) → Prop) (good : Mesh → (ℕ → ℝ) → ℕ → Prop) : Prop where
  run : ∀ m len e, P m len → m.heLive (eHalfedge e) →
    (step m len e = .ok (m, len, false) ∧ good m len e) ∨
    ∃ m1 len1, step m len e = .ok (m1, len1, true) ∧ P m1 len1 ∧ R (m, len) (m1, len1) ∧ good m1 len1 e ∧
      (∀ i, m1.heLive i ↔ m.heLive i) ∧ (∀ x ∈ m1.neighEdges e, m1.heLive (eHalfedge x)) ∧
      (∀ x, m.heLive (eHalfedge x) → x ≠ e → x ∉ m1.neighEdges e → good m len x → good m1 len1 x)

variable {step : Mesh → (ℕ → ℝ) → ℕ → FlipRes} {P : Mesh → (ℕ → ℝ) → Prop}
  {R : Mesh × (ℕ → ℝ) → Mesh × (ℕ → ℝ) → Prop} {good : Mesh → (ℕ → ℝ) → ℕ → Prop}

theorem delaunayLoop_spec (S : StepSpec step P R good) : ∀ (n : ℕ) (m : Mesh) (len : ℕ → ℝ) (q : List ℕ)
    (inQ : ℕ → Bool) (k : ℕ), P m len → (∀ x ∈ q, m.heLive (eHalfedge x)) →
    (∀ x, m.heLive (eHalfedge x) → inQ x = true → x ∈ q) →
    (∀ x, m.heLive (eHalfedge x) → inQ x = false → good m len x) →
    delaunayLoop step n m len q inQ k = .error .hang ∨
    ∃ m' len' k', delaunayLoop step n m len q inQ k = .ok (m', len', k + k') ∧ P m' len' ∧
      Chain R k' (m, len) (m', len') ∧ (∀ i, m'.heLive i ↔ m.heLive i) ∧
      ∀ x, m'.heLive (eHalfedge x) → good m' len' x := by
  intro n
  induction n with
  | zero => intro m len q inQ k _ _ _ _; exact Or.inl rfl
  | succ n ih =>
    intro m len q inQ k hP hq hin hgood
    cases q with
    | nil =>
      refine Or.inr ⟨m, len, 0, rfl, hP, Chain.nil _, fun _ => Iff.rfl, fun x hx => hgood x hx ?_⟩
      by_contra h
      have := hin x hx (by simpa using h)
      simp at this
    | cons e q =>
      have he := hq e (by simp)
      have hin1 : ∀ x, m.heLive (eHalfedge x) → (if x = e then false else inQ x) = true → x ∈ q := by
        intro x hx h
        by_cases hxe : x = e
        · simp [hxe] at h
        · rw [if_neg hxe] at h
          rcases List.mem_cons.1 (hin x hx h) with h' | h'
          · exact absurd h' hxe
          · exact h'
      rcases S.run m len e hP he with ⟨hs, hg⟩ | ⟨m1, len1, hs, hP1, hR, hg, hl, hnl, hfar⟩
      · have e1 : delaunayLoop step (n + 1) m len (e :: q) inQ k =
            delaunayLoop step n m len q (fun i => if i = e then false else inQ i) k := by
          simp only [delaunayLoop, hs]
        rw [e1]
        refine ih m len q _ k hP (fun x hx => hq x (List.mem_cons_of_mem _ hx)) hin1 ?_
        intro x hx h
        by_cases hxe : x = e
        · rw [hxe]; exact hg
        · simp only [if_neg hxe] at h; exact hgood x hx h
      · set inQ1 : ℕ → Bool := fun i => if i = e then false else inQ i with hI
        have e1 : delaunayLoop step (n + 1) m len (e :: q) inQ k =
            delaunayLoop step n m1 len1 (pushEdges (m1.neighEdges e) q inQ1).1
              (pushEdges (m1.neighEdges e) q inQ1).2 (k + 1) := by
          simp only [delaunayLoop, hs, ← hI]
        rw [e1]
        obtain ⟨p1, p2, p3, p4⟩ := pushEdges_spec (m1.neighEdges e) q inQ1
        have := ih m1 len1 (pushEdges (m1.neighEdges e) q inQ1).1 (pushEdges (m1.neighEdges e) q inQ1).2 (k + 1) hP1
          ?_ ?_ ?_
        · rcases this with h | ⟨m', len', k', h, a1, a2, a3, a4⟩
          · exact Or.inl h
          · refine Or.inr ⟨m', len', k' + 1, ?_, a1, Chain.cons hR a2, fun i => (a3 i).trans (hl i), a4⟩
            rw [h, show k + 1 + k' = k + (k' + 1) by omega]
        · intro x hx
          rcases p2 x hx with h | h
          · exact (hl _).2 (hq x (List.mem_cons_of_mem _ h))
          · exact hnl x h
        · intro x hx h
          by_cases hx1 : inQ1 x = true
          · exact p3 x (hin1 x ((hl _).1 hx) hx1)
          · rcases (p1 x).1 h with h | h
            · exact absurd h hx1
            · exact p4 x h (by simpa using hx1)
        · intro x hx h
          have h' : ¬ ((pushEdges (m1.neighEdges e) q inQ1).2 x = true) := by rw [h]; decide
          rw [p1, not_or] at h'
          by_cases hxe : x = e
          · rw [hxe]; exact hg
          · have : inQ x = false := by
              have := h'.1
              rw [hI] at this
              simp only [if_neg hxe] at this
              simpa using this
            exact hfar x ((hl _).1 hx) hxe h'.2 (hgood x ((hl _).1 hx) this)

/-- **The loop.** -/
theorem delaunayRun_spec (S : StepSpec step P R good) (fuel : ℕ) (m : Mesh) (hv : m.Valid) (len : ℕ → ℝ)
    (hP : P m len) :
    delaunayRun step fuel m len = .error .hang ∨
    ∃ m' len' k, delaunayRun step fuel m len = .ok (m', len', k) ∧ P m' len' ∧ Chain R k (m, len) (m', len') ∧
      (∀ i, m'.heLive i ↔ m.heLive i) ∧ ∀ x, m'.heLive (eHalfedge x) → good m' len' x := by
  obtain ⟨-, -, -, -, ⟨l, hl, ⟨-, hmem⟩, -⟩, -⟩ := C16_ranges m hv
  have := delaunayLoop_spec S fuel m len l (fun _ => true) 0 hP (fun x hx => (hmem x).1 hx)
    (fun x hx _ => (hmem x).2 hx) (fun x _ h => absurd h (by decide))
  simp only [Nat.zero_add] at this
  simp only [delaunayRun, hl]
  exact this

end Mesh
end GC
