import Verif.MeshCheck

/-! # Helper lemmas for the flip properties -/

namespace GC
namespace Mesh

theorem not_ext_iff {m : Mesh} {i : ℕ} : m.heIsInterior i ↔ ¬ m.ext i := Iff.rfl

/-- Every outcome of `flip` on a valid mesh. -/
theorem flip_cases {m : Mesh} (hv : m.Valid) {e : ℕ} (he : m.heLive (eHalfedge e)) (b : Bool) :
    m.flip e b = .ok (m, false) ∨
    (m.flip e b = .ok (m.flipCore (eHalfedge e), true) ∧ FlipOK m (eHalfedge e) ∧
      (b = true → ∀ i, m.heLive i →
        m.heVertex i = m.heVertex (m.heNext (m.heNext (eHalfedge e))) →
        m.tip i ≠ m.heVertex (m.heNext (m.heNext (twin (eHalfedge e)))))) := by
  unfold flip
  dsimp only
  split_ifs with h1 h2 h3 h4 h5
  · exact Or.inl rfl
  · exact Or.inl rfl
  · exact Or.inl rfl
  · exact Or.inl rfl
  · -- preventSelfEdges
    have hl := hv.next_live _ (hv.next_live _ he)
    obtain ⟨l, hl1, _, hl3, _⟩ := hv.outgoingHalfedges_ok (hv.vertex_live _ hl)
    have hadj : m.adjacentVertices (m.heVertex (m.heNext (m.heNext (eHalfedge e)))) = .ok (l.map m.tip) := by
      unfold adjacentVertices; rw [hl1]
    simp only [hadj]
    split_ifs with h6
    · exact Or.inl rfl
    · refine Or.inr ⟨rfl, ?_, ?_⟩
      · push Not at h2 h3 h4
        refine ⟨he, hv.edge_int e he, ?_, h2, h3, h4.1, h4.2⟩
        unfold eIsBoundary at h1; rw [not_ext_iff] at h1; exact not_not.1 h1
      · intro _ i hi hvi htip
        apply h6
        rw [List.mem_map]
        exact ⟨i, (hl3 i).2 ⟨hi, hvi⟩, htip⟩
  · refine Or.inr ⟨rfl, ?_, ?_⟩
    · push Not at h2 h3 h4
      refine ⟨he, hv.edge_int e he, ?_, h2, h3, h4.1, h4.2⟩
      unfold eIsBoundary at h1; rw [not_ext_iff] at h1; exact not_not.1 h1
    · intro hb; exact absurd hb h5

/-- A flippable edge is flipped when `preventSelfEdges` is off. -/
theorem flip_of_ok {m : Mesh} {e : ℕ} (h : FlipOK m (eHalfedge e)) :
    m.flip e false = .ok (m.flipCore (eHalfedge e), true) := by
  unfold flip
  have h1 : ¬ m.eIsBoundary e := by unfold eIsBoundary; rw [not_ext_iff]; exact not_not.2 h.int_b
  have h4 : ¬ (m.heNext (eHalfedge e) = twin (eHalfedge e) ∨ m.heNext (twin (eHalfedge e)) = eHalfedge e) := by
    push Not; exact ⟨h.deg_a, h.deg_b⟩
  simp only [if_neg h1, h.tri_a, h.tri_b, h4, ne_eq, not_true, if_false, Bool.false_eq_true]

/-- The six halfedges after a flip. -/
theorem six_flip {m m' : Mesh} {a1 a2 a3 b1 b2 b3 : ℕ} (s : Six m a1 a2 a3 b1 b2 b3)
    (F : FlipArrays m m' a1 a2 a3 b1 b2 b3) (hl : ∀ i, m'.heLive i ↔ m.heLive i) :
    Six m' a1 b3 a2 b1 a3 b2 := by
  refine ⟨s.tb, F.na1, F.nb3, F.na2, F.nb1, F.na3, F.nb2, (hl _).2 s.la1, (hl _).2 s.lb3, (hl _).2 s.la2,
    (hl _).2 s.lb1, (hl _).2 s.la3, (hl _).2 s.lb2, s.x13, s.d12, s.x23.symm, s.x31.symm, s.e12, s.x32,
    s.x11, s.d13, s.x12, s.e13.symm, s.x33.symm, s.e23.symm, s.x21, s.d23, s.x22, ?_⟩
  rw [F.fo a1 s.d13 s.x13, F.fo b1 s.x31.symm s.e13]; exact s.fne

theorem flipOK_flipCore {m : Mesh} (hv : m.Valid) {a1 : ℕ} (h : FlipOK m a1) :
    FlipOK (m.flipCore a1) a1 := by
  have s := six_of hv h
  have F := flipArrays s
  have hl : ∀ i, (m.flipCore a1).heLive i ↔ m.heLive i := by
    intro i; unfold heLive; rw [flip_heLive hv s F rfl i]; rfl
  have s' := six_flip s F hl
  have fill : (m.flipCore a1).nFFill = m.nFFill := rfl
  refine ⟨s'.la1, ?_, ?_, ?_, ?_, ?_, ?_⟩
  · unfold ext; rw [F.fo _ s.d13 s.x13, fill]; exact h.int_a
  · unfold ext; rw [F.fo _ s.x31.symm s.e13, fill]; exact h.int_b
  · rw [s'.na1, s'.na2, s'.na3]
  · rw [s'.nb1, s'.nb2, s'.nb3]
  · rw [s'.na1]; exact s.e13.symm
  · rw [s'.nb1]; exact s.d13.symm

theorem six_of_names {m : Mesh} {a1 a2 a3 b1 b2 b3 : ℕ} (s : Six m a1 a2 a3 b1 b2 b3) :
    a2 = m.heNext a1 ∧ a3 = m.heNext (m.heNext a1) ∧ b1 = twin a1 ∧ b2 = m.heNext (twin a1) ∧
      b3 = m.heNext (m.heNext (twin a1)) := by
  refine ⟨s.na1.symm, by rw [s.na1, s.na2], s.tb, by rw [← s.tb, s.nb1], by rw [← s.tb, s.nb1, s.nb2]⟩

/-- Two flips of one edge. -/
theorem flip_twice {m : Mesh} (hv : m.Valid) {a1 : ℕ} (h : FlipOK m a1) :
    let m2 := (m.flipCore a1).flipCore a1
    let τ : ℕ → ℕ := Equiv.swap a1 (twin a1)
    let φ : ℕ → ℕ := Equiv.swap (m.heFace a1) (m.heFace (twin a1))
    (∀ i, m.heLive i → m2.heNext (τ i) = τ (m.heNext i) ∧ m2.heVertex (τ i) = m.heVertex i ∧
      m2.heFace (τ i) = φ (m.heFace i)) ∧
    (∀ i, ¬ m.heLive i → m2.heNext i = m.heNext i ∧ m2.heVertex i = m.heVertex i ∧
      m2.heFace i = m.heFace i) := by
  intro m2 τ φ
  have s := six_of hv h
  set a2 := m.heNext a1 with ha2
  set a3 := m.heNext a2 with ha3
  set b1 := twin a1 with hb1
  set b2 := m.heNext b1 with hb2
  set b3 := m.heNext b2 with hb3
  have F := flipArrays s
  have hv1 := flipCore_valid hv h
  have hl : ∀ i, (m.flipCore a1).heLive i ↔ m.heLive i := by
    intro i; unfold heLive; rw [flip_heLive hv s F rfl i]; rfl
  have s1 := six_flip s F hl
  have F1 := flipArrays s1
  have fa2 : m.heFace a2 = m.heFace a1 := by rw [← s.na1]; exact hv.face_next s.la1
  have fa3 : m.heFace a3 = m.heFace a1 := by rw [← fa2, ← s.na2]; exact hv.face_next s.la2
  have fb2 : m.heFace b2 = m.heFace b1 := by rw [← s.nb1]; exact hv.face_next s.lb1
  have fb3 : m.heFace b3 = m.heFace b1 := by rw [← fb2, ← s.nb2]; exact hv.face_next s.lb2
  have va1 : m.heVertex a1 = m.heVertex b2 := by
    have := hv.vertex_next s.lb1; rw [s.nb1, s.tb, twin_twin] at this; exact this.symm
  have vb1 : m.heVertex b1 = m.heVertex a2 := by
    have := hv.vertex_next s.la1; rw [s.na1, ← s.tb] at this; exact this.symm
  have cyc : ∀ {x y z w}, m.heLive x → m.heLive w → m.heNext x = y → m.heNext y = z →
      m.heNext z = x → m.heFace w = m.heFace x → w = x ∨ w = y ∨ w = z := by
    intro x y z w lx lw e1 e2 e3 hf
    refine ((hv.face_iff _ _ lx lw).1 hf.symm).mem (fun t => t = x ∨ t = y ∨ t = z) (Or.inl rfl) ?_
    rintro t (rfl | rfl | rfl)
    · rw [e1]; tauto
    · rw [e2]; tauto
    · rw [e3]; tauto
  have hτ1 : τ a1 = b1 := Equiv.swap_apply_left _ _
  have hτ2 : τ b1 = a1 := Equiv.swap_apply_right _ _
  have hτo : ∀ {i}, i ≠ a1 → i ≠ b1 → τ i = i := fun h1 h2 => Equiv.swap_apply_of_ne_of_ne h1 h2
  have hφ1 : φ (m.heFace a1) = m.heFace b1 := Equiv.swap_apply_left _ _
  have hφ2 : φ (m.heFace b1) = m.heFace a1 := Equiv.swap_apply_right _ _
  have hφo : ∀ {f}, f ≠ m.heFace a1 → f ≠ m.heFace b1 → φ f = f := fun h1 h2 =>
    Equiv.swap_apply_of_ne_of_ne h1 h2
  have hm2 : m2 = (m.flipCore a1).flipCore a1 := rfl
  clear_value a2 a3 b1 b2 b3 τ φ m2
  subst hm2
  have oth : ∀ i, i ≠ a1 → i ≠ a2 → i ≠ a3 → i ≠ b1 → i ≠ b2 → i ≠ b3 →
      ((m.flipCore a1).flipCore a1).heNext i = m.heNext i ∧
      ((m.flipCore a1).flipCore a1).heVertex i = m.heVertex i ∧
      ((m.flipCore a1).flipCore a1).heFace i = m.heFace i := by
    intro i h1 h2 h3 h4 h5 h6
    rw [F1.no i h1 h6 h2 h4 h3 h5, F.no i h1 h2 h3 h4 h5 h6, F1.vo i h1 h4, F.vo i h1 h4,
      F1.fo i h2 h5, F.fo i h3 h6]
    exact ⟨rfl, rfl, rfl⟩
  constructor
  · intro i hi
    by_cases h1 : i = a1
    · subst h1
      rw [hτ1, F1.nb1, s.na1, hτo s.d12.symm s.x21, F1.vb1, F.vo _ s.x12.symm s.e12.symm, va1, hφ1,
        F1.fo _ s.x21.symm s.e12, F.fo _ s.x31.symm s.e13]
      exact ⟨rfl, rfl, rfl⟩
    by_cases h4 : i = b1
    · subst h4
      rw [hτ2, F1.na1, s.nb1, hτo s.x12.symm s.e12.symm, F1.va1, F.vo _ s.d12.symm s.x21, vb1, hφ2,
        F1.fo _ s.d12 s.x12, F.fo _ s.d13 s.x13]
      exact ⟨rfl, rfl, rfl⟩
    rw [hτo h1 h4]
    by_cases h2 : i = a2
    · subst h2
      rw [F1.na3, s.na2, hτo s.d13.symm s.x31, F1.vo _ h1 h4, F.vo _ h1 h4, F1.fa3,
        F.fo _ s.x31.symm s.e13, fa2, hφ1]
      exact ⟨rfl, rfl, rfl⟩
    by_cases h3 : i = a3
    · subst h3
      rw [F1.nb2, s.na3, hτ1, F1.vo _ h1 h4, F.vo _ h1 h4, F1.fo _ s.d23.symm s.x32, F.fa3, fa3, hφ1]
      exact ⟨rfl, rfl, rfl⟩
    by_cases h5 : i = b2
    · subst h5
      rw [F1.nb3, s.nb2, hτo s.x13.symm s.e13.symm, F1.vo _ h1 h4, F.vo _ h1 h4, F1.fb3,
        F.fo _ s.d13 s.x13, fb2, hφ2]
      exact ⟨rfl, rfl, rfl⟩
    by_cases h6 : i = b3
    · subst h6
      rw [F1.na2, s.nb3, hτ2, F1.vo _ h1 h4, F.vo _ h1 h4, F1.fo _ s.x23.symm s.e23.symm, F.fb3, fb3, hφ2]
      exact ⟨rfl, rfl, rfl⟩
    obtain ⟨o1, o2, o3⟩ := oth i h1 h2 h3 h4 h5 h6
    have ha : m.heFace i ≠ m.heFace a1 := by
      intro e; rcases cyc s.la1 hi s.na1 s.na2 s.na3 e with e | e | e <;> contradiction
    have hb : m.heFace i ≠ m.heFace b1 := by
      intro e; rcases cyc s.lb1 hi s.nb1 s.nb2 s.nb3 e with e | e | e <;> contradiction
    rw [o1, o2, o3, hφo ha hb, hτo]
    · exact ⟨rfl, rfl, rfl⟩
    · intro e; have := hv.face_next hi; rw [e] at this; exact ha this.symm
    · intro e; have := hv.face_next hi; rw [e] at this; exact hb this.symm
  · intro i hi
    apply oth
    all_goals rintro rfl
    · exact hi s.la1
    · exact hi s.la2
    · exact hi s.la3
    · exact hi s.lb1
    · exact hi s.lb2
    · exact hi s.lb3

end Mesh
end GC
