import Verif.FlipLemmas

/-! # Properties C01–C03: edge flips -/

namespace GC
open Mesh

/-- **C01.** `flip` on a valid mesh returns (it neither hangs nor leaves the arrays), the result is
again a valid manifold mesh, and no element count changes. -/
theorem C01_flip_valid (m : Mesh) (hv : m.Valid) (e : ℕ) (he : m.heLive (2 * e)) (prevent : Bool) :
    ∃ m' r, m.flip e prevent = .ok (m', r) ∧ m'.Valid ∧
      m'.nV = m.nV ∧ m'.nE = m.nE ∧ m'.nF = m.nF ∧ m'.nHe = m.nHe ∧ m'.nInt = m.nInt ∧ m'.nBL = m.nBL := by
  rcases flip_cases hv (e := e) he prevent with h | ⟨h, hok, _⟩
  · exact ⟨m, false, h, hv, rfl, rfl, rfl, rfl, rfl, rfl⟩
  · exact ⟨_, true, h, flipCore_valid hv hok, rfl, rfl, rfl, rfl, rfl, rfl⟩

example : tetra.Valid ∧ tetra.heLive (2 * 1) ∧
    (∃ m', tetra.flip 1 false = .ok (m', true) ∧ m'.heVertex 2 = 0 ∧ m'.heVertex 3 = 3) :=
  ⟨tetra_valid, by decide +kernel, _, rfl, by decide +kernel, by decide +kernel⟩

/-- A refused flip: a boundary edge. -/
example : ∃ m', square.flip 0 false = .ok (m', false) := ⟨_, rfl⟩

/-- **C02 (refusal).** If `flip` returns `false` the mesh is untouched. -/
theorem C02_flip_refused (m : Mesh) (hv : m.Valid) (e : ℕ) (he : m.heLive (2 * e)) (prevent : Bool)
    (m' : Mesh) (h : m.flip e prevent = .ok (m', false)) : m' = m := by
  rcases flip_cases hv (e := e) he prevent with h' | ⟨h', _, _⟩ <;> rw [h'] at h <;> injection h with h <;>
    injection h with h1 h2
  · exact h1.symm
  · exact absurd h2 (by decide)

/-- **C02 (decision).** With `preventSelfEdges` off, `flip` succeeds exactly if `e` is an interior edge
between two triangles and neither endpoint of `e` has degree one. -/
theorem C02_flip_iff (m : Mesh) (hv : m.Valid) (e : ℕ) (he : m.heLive (2 * e)) :
    (∃ m', m.flip e false = .ok (m', true)) ↔
      (m.heFace (2 * e + 1) < m.nFFill ∧
        m.heNext (m.heNext (m.heNext (2 * e))) = 2 * e ∧
        m.heNext (m.heNext (m.heNext (2 * e + 1))) = 2 * e + 1 ∧
        m.heNext (2 * e) ≠ 2 * e + 1 ∧ m.heNext (2 * e + 1) ≠ 2 * e) := by
  have tw : twin (2 * e) = 2 * e + 1 := twin_two_mul e
  constructor
  · rintro ⟨m', h⟩
    rcases flip_cases hv (e := e) he false with h' | ⟨_, hok, _⟩
    · rw [h'] at h; injection h with h; injection h with _ h2; exact absurd h2 (by decide)
    · have i2 := hok.int_b; have t2 := hok.tri_b; have d1 := hok.deg_a; have d2 := hok.deg_b
      unfold eHalfedge at i2 t2 d1 d2
      rw [tw] at i2 t2 d1 d2
      exact ⟨Valid.face_lt i2, hok.tri_a, t2, d1, d2⟩
  · rintro ⟨h1, h2, h3, h4, h5⟩
    refine ⟨_, flip_of_ok ⟨he, hv.edge_int e he, ?_, h2, ?_, ?_, ?_⟩⟩
    · unfold eHalfedge ext; rw [tw]; omega
    · unfold eHalfedge; rw [tw]; exact h3
    · unfold eHalfedge; rw [tw]; exact h4
    · unfold eHalfedge; rw [tw]; exact h5

example : (∃ m', tetra.flip 1 false = .ok (m', true)) := (C02_flip_iff tetra tetra_valid 1
  (by decide +kernel)).2 (by decide +kernel)

/-- **C02 (effect).** A successful flip replaces the endpoints of `e` by the two vertices opposite to
it; every other halfedge keeps its tail and its tip. -/
theorem C02_flip_endpoints (m : Mesh) (hv : m.Valid) (e : ℕ) (he : m.heLive (2 * e)) (prevent : Bool)
    (m' : Mesh) (h : m.flip e prevent = .ok (m', true)) :
    m'.heVertex (2 * e) = m.heVertex (m.heNext (m.heNext (2 * e))) ∧
    m'.heVertex (2 * e + 1) = m.heVertex (m.heNext (m.heNext (2 * e + 1))) ∧
    m'.tip (2 * e) = m'.heVertex (2 * e + 1) ∧ m'.tip (2 * e + 1) = m'.heVertex (2 * e) ∧
    (∀ i, i ≠ 2 * e → i ≠ 2 * e + 1 → m'.heVertex i = m.heVertex i) ∧
    (∀ i, m.heLive i → i ≠ 2 * e → i ≠ 2 * e + 1 → m'.tip i = m.tip i) := by
  have tw : twin (2 * e) = 2 * e + 1 := twin_two_mul e
  rcases flip_cases hv (e := e) he prevent with h' | ⟨h', hok, _⟩ <;> rw [h'] at h <;> injection h with h <;>
    injection h with h1 h2
  · exact absurd h2 (by decide)
  subst h1
  have s := six_of hv hok
  have F := flipArrays s
  have hv' := flipCore_valid hv hok
  have hl : ∀ i, (m.flipCore (eHalfedge e)).heLive i ↔ m.heLive i := by
    intro i; unfold heLive; rw [flip_heLive hv s F rfl i]; rfl
  have g1 := F.va1
  have g2 := F.vb1
  have g3 := F.vo
  unfold eHalfedge at g1 g2 g3 hv' hl
  rw [tw] at g2 g3
  have tip' : ∀ i, m.heLive i → (m.flipCore (2 * e)).tip i = (m.flipCore (2 * e)).heVertex (twin i) := by
    intro i hi; exact hv'.vertex_next ((hl i).2 hi)
  have tip0 : ∀ i, m.heLive i → m.tip i = m.heVertex (twin i) := fun i hi => hv.vertex_next hi
  refine ⟨g1, g2, ?_, ?_, g3, ?_⟩
  · unfold eHalfedge; rw [tip' _ he, tw]
  · unfold eHalfedge; rw [tip', twin_two_mul_add]; rw [← tw]; exact hv.twin_live _ he
  · intro i hi h1 h2
    unfold eHalfedge
    rw [tip' i hi, tip0 i hi]
    apply g3
    · intro e'; apply h2; rw [← tw, ← e', twin_twin]
    · intro e'; apply h1; rw [← twin_twin i, e', twin_two_mul_add]

/-- **C02 (twice).** Flipping `e` twice restores the surface with the two halfedges of `e` (and with
them the two faces) exchanged. -/
theorem C02_flip_twice (m : Mesh) (hv : m.Valid) (e : ℕ) (he : m.heLive (2 * e))
    (m1 : Mesh) (h : m.flip e false = .ok (m1, true)) :
    ∃ m2, m1.flip e false = .ok (m2, true) ∧
      ∀ i, m.heLive i →
        m2.heNext (Equiv.swap (2 * e) (2 * e + 1) i) = Equiv.swap (2 * e) (2 * e + 1) (m.heNext i) ∧
        m2.heVertex (Equiv.swap (2 * e) (2 * e + 1) i) = m.heVertex i ∧
        m2.heFace (Equiv.swap (2 * e) (2 * e + 1) i) =
          Equiv.swap (m.heFace (2 * e)) (m.heFace (2 * e + 1)) (m.heFace i) := by
  have tw : twin (2 * e) = 2 * e + 1 := twin_two_mul e
  rcases flip_cases hv (e := e) he false with h' | ⟨h', hok, _⟩ <;> rw [h'] at h <;> injection h with h <;>
    injection h with h1 h2
  · exact absurd h2 (by decide)
  subst h1
  refine ⟨_, flip_of_ok (flipOK_flipCore hv hok), ?_⟩
  have := (flip_twice hv hok).1
  unfold eHalfedge at this
  rw [tw] at this
  exact this

/-- **C02 (four times).** Four flips of one edge restore `next`, `vertex` and `face` of every halfedge. -/
theorem C02_flip_four (m : Mesh) (hv : m.Valid) (e : ℕ) (he : m.heLive (2 * e))
    (m1 : Mesh) (h : m.flip e false = .ok (m1, true)) :
    ∃ m2 m3 m4, m1.flip e false = .ok (m2, true) ∧ m2.flip e false = .ok (m3, true) ∧
      m3.flip e false = .ok (m4, true) ∧
      m4.heNext = m.heNext ∧ m4.heVertex = m.heVertex ∧ m4.heFace = m.heFace := by
  rcases flip_cases hv (e := e) he false with h' | ⟨h', hok, _⟩ <;> rw [h'] at h <;> injection h with h <;>
    injection h with h1 h2
  · exact absurd h2 (by decide)
  subst h1
  have v1 := flipCore_valid hv hok
  have o1 := flipOK_flipCore hv hok
  have v2 := flipCore_valid v1 o1
  have o2 := flipOK_flipCore v1 o1
  have o3 := flipOK_flipCore v2 o2
  refine ⟨_, _, _, flip_of_ok o1, flip_of_ok o2, flip_of_ok o3, ?_⟩
  obtain ⟨A, A'⟩ := flip_twice hv hok
  obtain ⟨B, B'⟩ := flip_twice v2 o2
  set m2 := (m.flipCore (eHalfedge e)).flipCore (eHalfedge e) with hm2
  have s := six_of hv hok
  have hl1 : ∀ i, (m.flipCore (eHalfedge e)).heLive i ↔ m.heLive i := by
    intro i; unfold heLive; rw [flip_heLive hv s (flipArrays s) rfl i]; rfl
  have hl : ∀ i, m2.heLive i ↔ m.heLive i := by
    intro i
    rw [← hl1 i]; unfold heLive
    rw [flip_heLive v1 (six_of v1 o1) (flipArrays (six_of v1 o1)) rfl i]; rfl
  have s' := six_of v2 o2
  -- faces of e in m2
  have fx := (A _ s.la1).2.2
  have fy := (A _ s.lb1).2.2
  rw [Equiv.swap_apply_left, Equiv.swap_apply_left] at fx
  rw [Equiv.swap_apply_right, Equiv.swap_apply_right] at fy
  rw [fx, fy] at B
  clear_value m2
  set a := eHalfedge e
  have inv : ∀ x y i : ℕ, Equiv.swap x y (Equiv.swap x y i) = i := fun x y i => Equiv.swap_apply_self x y i
  have liveτ : ∀ i, m.heLive i → m.heLive (Equiv.swap a (twin a) i) := by
    intro i hi
    rcases Equiv.swap_apply_eq_iff.1 (rfl : Equiv.swap a (twin a) i = _) with _
    by_cases h1 : i = a
    · rw [h1, Equiv.swap_apply_left]; exact s.lb1
    · by_cases h2 : i = twin a
      · rw [h2, Equiv.swap_apply_right]; exact s.la1
      · rwa [Equiv.swap_apply_of_ne_of_ne h1 h2]
  have key : ∀ i, ((m2.flipCore a).flipCore a).heNext i = m.heNext i ∧
      ((m2.flipCore a).flipCore a).heVertex i = m.heVertex i ∧
      ((m2.flipCore a).flipCore a).heFace i = m.heFace i := by
    intro i
    by_cases hi : m.heLive i
    · have hτ := liveτ i hi
      have b := B _ ((hl _).2 hτ)
      have a' := A i hi
      rw [inv] at b
      rw [b.1, b.2.1, b.2.2, a'.1, a'.2.1, a'.2.2, inv, inv]
      exact ⟨rfl, rfl, rfl⟩
    · have b := B' i (fun h => hi ((hl i).1 h))
      have a' := A' i hi
      rw [b.1, b.2.1, b.2.2, a'.1, a'.2.1, a'.2.2]
      exact ⟨rfl, rfl, rfl⟩
  exact ⟨funext fun i => (key i).1, funext fun i => (key i).2.1, funext fun i => (key i).2.2⟩

example : ∃ m1, tetra.flip 1 false = .ok (m1, true) := ⟨_, rfl⟩

/-- **C03 is false.** With `preventSelfEdges = true` a flip can still make a self-edge: two triangles
glued along all three sides, edge 01 becomes an edge from vertex 2 to itself. -/
theorem C03_flip_preventSelfEdges_fails :
    ∃ (m : Mesh) (e : ℕ) (m' : Mesh), m.Valid ∧ m.heLive (2 * e) ∧
      m.heVertex (2 * e) ≠ m.heVertex (2 * e + 1) ∧ m.flip e true = .ok (m', true) ∧
      m'.heVertex (2 * e) = m'.heVertex (2 * e + 1) :=
  ⟨pillow, 0, _, pillow_valid, by decide +kernel, by decide +kernel, rfl, by decide +kernel⟩

/-- **C03, the part that holds.** Full claim: with `preventSelfEdges = true` no flip produces a
self-edge. Missing: the case in which the two vertices opposite to `e` coincide (see
`C03_flip_preventSelfEdges_fails`). What holds: apart from that case no self-edge appears, and a flip
never produces a second edge between the two opposite vertices. -/
theorem C03_flip_preventSelfEdges_partial (m : Mesh) (hv : m.Valid) (e : ℕ) (he : m.heLive (2 * e))
    (m' : Mesh) (h : m.flip e true = .ok (m', true)) :
    (m.heVertex (m.heNext (m.heNext (2 * e))) ≠ m.heVertex (m.heNext (m.heNext (2 * e + 1))) →
      m'.heVertex (2 * e) ≠ m'.heVertex (2 * e + 1)) ∧
    (∀ i, m'.heLive i → i ≠ 2 * e → m'.heVertex i = m'.heVertex (2 * e) →
      m'.tip i = m'.heVertex (2 * e + 1) → i = 2 * e + 1) := by
  obtain ⟨h1, h2, _, _, h5, h6⟩ := C02_flip_endpoints m hv e he true m' h
  refine ⟨fun hne => by rw [h1, h2]; exact hne, ?_⟩
  intro i hi hie hvi hti
  by_contra hne
  rcases flip_cases hv (e := e) he true with h' | ⟨h', hok, hno⟩ <;> rw [h'] at h <;> injection h with h <;>
    injection h with hm hb
  · exact absurd hb (by decide)
  have hl : m.heLive i := by
    subst hm
    have s := six_of hv hok
    refine ⟨hi.1, (flip_heLive hv s (flipArrays s) rfl i).1 hi.2⟩
  rw [h5 i hie hne, h1] at hvi
  rw [h6 i hl hie hne, h2] at hti
  have tw : twin (2 * e) = 2 * e + 1 := twin_two_mul e
  have := hno rfl i hl hvi
  unfold eHalfedge at this
  rw [tw] at this
  exact this hti

/-- The hypotheses of `C03_flip_preventSelfEdges_partial` are met by the diagonal of a square. -/
example : square.Valid ∧ square.heLive (2 * 2) ∧ ∃ m', square.flip 2 true = .ok (m', true) :=
  ⟨square_valid, by decide +kernel, _, rfl⟩

end GC
