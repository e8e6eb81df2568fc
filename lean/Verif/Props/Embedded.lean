import Verif.Embedded
import Verif.Props.Connection

/-! # C69: geometry from positions is the geometry of the edge lengths -/

namespace GC
open Classical Finset

theorem assignM_ok {α : Type} {g : ℕ → Res α} {f : ℕ → α} {l : List ℕ} (h : ∀ a ∈ l, g a = .ok (f a)) (d : ℕ → α) :
    assignM d g l = .ok (assign d f l) := by
  unfold assignM assign
  induction l generalizing d with
  | nil => rfl
  | cons a l ih =>
    simp only [List.foldlM_cons, bind, Except.bind, h a List.mem_cons_self, List.foldl_cons]
    have := ih (fun b hb => h b (List.mem_cons_of_mem _ hb)) (Function.update d a (f a))
    simp only [bind, Except.bind] at this
    exact this

theorem V3.sub_comm_norm (u v : V3) : (u.sub v).norm = (v.sub u).norm := by
  unfold V3.norm V3.sub; congr 1; ring

/-- A triangle in space that is not on a line: its edge lengths and area. -/
theorem tri3 {p q r : V3} (h : (q.sub p).cross (r.sub p) ≠ V3.zero) :
    TriOK (p.sub q).norm (q.sub r).norm (r.sub p).norm ∧
      triangleArea (p.sub q).norm (q.sub r).norm (r.sub p).norm = 0.5 * ((q.sub p).cross (r.sub p)).norm := by
  have na := V3.norm_sq (p.sub q)
  have nb := V3.norm_sq (q.sub r)
  have nc := V3.norm_sq (r.sub p)
  have a0 := V3.norm_nonneg (p.sub q)
  have b0 := V3.norm_nonneg (q.sub r)
  have c0 := V3.norm_nonneg (r.sub p)
  have n := V3.norm_sq ((q.sub p).cross (r.sub p))
  have np := V3.norm_pos h
  set a := (p.sub q).norm
  set b := (q.sub r).norm
  set c := (r.sub p).norm
  set x := ((q.sub p).cross (r.sub p)).norm
  have key : (a + b + c) * (b + c - a) * (c + a - b) * (a + b - c) = 4 * (x * x) := by
    have e : (a + b + c) * (b + c - a) * (c + a - b) * (a + b - c) = 4 * (a * a) * (b * b) - (a * a + b * b - c * c) ^ 2 := by ring
    rw [e, na, nb, nc, n]
    simp only [V3.dot, V3.sub, V3.cross]
    ring
  have pos : 0 < (a + b + c) * (b + c - a) * (c + a - b) * (a + b - c) := by rw [key]; positivity
  have ha : a < b + c := by
    by_contra q
    push Not at q
    have : (a + b + c) * (b + c - a) * (c + a - b) * (a + b - c) ≤ 0 :=
      mul_nonpos_of_nonpos_of_nonneg (mul_nonpos_of_nonpos_of_nonneg (mul_nonpos_of_nonneg_of_nonpos (by linarith) (by linarith)) (by linarith)) (by linarith)
    linarith
  have hb : b < c + a := by
    by_contra q
    push Not at q
    have : (a + b + c) * (b + c - a) * (c + a - b) * (a + b - c) ≤ 0 :=
      mul_nonpos_of_nonpos_of_nonneg (mul_nonpos_of_nonneg_of_nonpos (mul_nonneg (by linarith) (by linarith)) (by linarith)) (by linarith)
    linarith
  have hc : c < a + b := by
    by_contra q
    push Not at q
    have : (a + b + c) * (b + c - a) * (c + a - b) * (a + b - c) ≤ 0 :=
      mul_nonpos_of_nonneg_of_nonpos (mul_nonneg (mul_nonneg (by linarith) (by linarith)) (by linarith)) (by linarith)
    linarith
  refine ⟨⟨by linarith, by linarith, by linarith, ha, hb, hc⟩, ?_⟩
  unfold triangleArea
  have e : (a + b + c) / 2 * ((a + b + c) / 2 - a) * ((a + b + c) / 2 - b) * ((a + b + c) / 2 - c) = (0.5 * x) ^ 2 := by
    linear_combination key / 16
  simp only [e]
  rw [max_eq_right (sq_nonneg _), Real.sqrt_sq (by positivity)]

namespace Mesh
variable {m : Mesh} {pos : ℕ → V3} {vs hs is es fs : List ℕ}

/-- No face has its three vertices on a line. -/
def NonDegenerate (m : Mesh) (pos : ℕ → V3) : Prop := ∀ h, m.heLive h → ¬ m.ext h →
  ((pos (m.heVertex (m.heNext h))).sub (pos (m.heVertex h))).cross ((pos (m.heVertex (m.heNext (m.heNext h)))).sub (pos (m.heVertex h))) ≠ ⟨0, 0, 0⟩

/-- The halfedges of a triangle, as the iterator gives them. -/
theorem nav_tri (hv : m.Valid) (ht : m.TriFaces) {f : ℕ} (hf : f ∈ m.faces) :
    m.navFaceHalfedges f = .ok [m.fHalfedge f, m.heNext (m.fHalfedge f), m.heNext (m.heNext (m.fHalfedge f))] := by
  obtain ⟨q1, q2⟩ := mem_faces.1 hf
  obtain ⟨l, e, nd, mem, l0, ln, -⟩ := C49_face_halfedges m hv f q1
  obtain ⟨i0, e0⟩ := hv.f_he f q1
  have x0 : ¬ m.ext (m.fHalfedge f) := face_not_ext hv (by rw [e0]; exact q2)
  obtain ⟨d1, d2, d3⟩ := tri_distinct hv ht (mem_ints.2 ⟨i0, x0⟩)
  have tf : l.toFinset = {m.fHalfedge f, m.heNext (m.fHalfedge f), m.heNext (m.heNext (m.fHalfedge f))} := by
    ext i
    rw [List.mem_toFinset, mem, mem_insert, mem_insert, mem_singleton]
    constructor
    · rintro ⟨a, b⟩
      have := hv.tri_mem i0 a (ht _ i0 x0) (by rw [e0, b])
      tauto
    · rintro (rfl | rfl | rfl)
      · exact ⟨i0, e0⟩
      · exact ⟨hv.next_live _ i0, by rw [hv.face_next i0, e0]⟩
      · exact ⟨hv.next_live _ (hv.next_live _ i0), by rw [hv.face_next (hv.next_live _ i0), hv.face_next i0, e0]⟩
  have len : l.length = 3 := by
    rw [← List.toFinset_card_of_nodup nd, tf, card_eq_three]
    exact ⟨_, _, _, d1.symm, d2.symm, d3.symm, rfl⟩
  have l1 := ln 0 _ l0
  rw [len] at l1
  have l2 := ln 1 _ l1
  rw [len] at l2
  rw [e]
  congr 1
  match l, len, l0, l1, l2 with
  | [a, b, c], _, l0, l1, l2 =>
    simp at l0 l1 l2
    subst l0
    rw [l1, l2]

theorem edgeLengthP_he (hv : m.Valid) {h : ℕ} (hl : m.heLive h) :
    m.edgeLengthP pos (heEdge h) = ((pos (m.heVertex h)).sub (pos (m.heVertex (m.heNext h)))).norm := by
  unfold edgeLengthP
  simp only
  rcases Nat.mod_two_eq_zero_or_one h with q | q
  · have e : eHalfedge (heEdge h) = h := by unfold eHalfedge heEdge; omega
    rw [e]
  · have e : eHalfedge (heEdge h) = twin h := by
      have : h = 2 * (h / 2) + 1 := by omega
      conv_rhs => rw [this, ← twin_two_mul, twin_twin]
      rfl
    rw [e, hv.vertex_next hl, hv.vertex_next (hv.twin_live h hl), twin_twin, V3.sub_comm_norm]

/-- The lengths around a face. -/
structure FaceLengths (m : Mesh) (pos : ℕ → V3) (len : ℕ → ℝ) : Prop where
  edge : ∀ h, m.heLive h → len (heEdge h) = ((pos (m.heVertex h)).sub (pos (m.heVertex (m.heNext h)))).norm
  area : ∀ h ∈ m.ints, m.faceArea len (m.heFace h) = 0.5 * (((pos (m.heVertex (m.heNext h))).sub (pos (m.heVertex h))).cross
    ((pos (m.heVertex (m.heNext (m.heNext h)))).sub (pos (m.heVertex h)))).norm
  metric : m.Metric len

theorem edgeLengthsE_ok (hv : m.Valid) (ht : m.TriFaces) (hn : m.NonDegenerate pos) (R : m.Ranges vs hs is es fs) :
    ∃ len, m.edgeLengthsE pos = .ok len ∧ (∀ e, len e = if e ∈ m.edges then m.edgeLengthP pos e else 0) ∧ m.FaceLengths pos len := by
  have l2 : ∀ e, assign (fun _ => 0) (m.edgeLengthP pos) es e = if e ∈ m.edges then m.edgeLengthP pos e else 0 := by
    intro e; rw [assign_apply]; simp only [R.me]
  set len := assign (fun _ => 0) (m.edgeLengthP pos) es with hlen
  have edge : ∀ h, m.heLive h → len (heEdge h) = ((pos (m.heVertex h)).sub (pos (m.heVertex (m.heNext h)))).norm := by
    intro h hl
    rw [l2, if_pos ((mem_edges hv).2 (edge_live hv hl)), edgeLengthP_he hv hl]
  have key : ∀ h ∈ m.ints, TriOK (len (heEdge h)) (len (heEdge (m.heNext h))) (len (heEdge (m.heNext (m.heNext h)))) ∧
      triangleArea (len (heEdge h)) (len (heEdge (m.heNext h))) (len (heEdge (m.heNext (m.heNext h)))) =
        0.5 * (((pos (m.heVertex (m.heNext h))).sub (pos (m.heVertex h))).cross ((pos (m.heVertex (m.heNext (m.heNext h)))).sub (pos (m.heVertex h)))).norm := by
    intro h hh
    obtain ⟨a, b⟩ := mem_ints.1 hh
    have i1 := int_next hv hh
    rw [edge h a, edge _ (mem_ints.1 i1).1, edge _ (mem_ints.1 (int_next hv i1)).1, ht h a b]
    exact tri3 (hn h a b)
  have hm : m.Metric len := fun h a b => (key h (mem_ints.2 ⟨a, b⟩)).1
  refine ⟨len, by unfold edgeLengthsE; rw [R.e]; rfl, l2, edge, fun h hh => ?_, hm⟩
  have ar : m.faceArea len (m.heFace h) = _ := faceArea_he (len := len) hv ht hh
  rw [ar]
  exact (key h hh).2

theorem cot3 {len : ℕ → ℝ} (hv : m.Valid) (ht : m.TriFaces) (F : m.FaceLengths pos len) {h : ℕ} (hh : h ∈ m.ints) :
    m.halfedgeCotanWeightP pos h = m.halfedgeCotanWeight len h := by
  obtain ⟨a, b⟩ := mem_ints.1 hh
  have i1 := int_next hv hh
  have i2 := int_next hv i1
  have ar := F.area _ i2
  rw [hv.face_next (mem_ints.1 i1).1, hv.face_next a, ht h a b] at ar
  have ap := faceArea_pos hv F.metric (int_face hv hh)
  unfold halfedgeCotanWeightP halfedgeCotanWeight
  rw [if_pos (heInterior_iff.2 b), if_pos (heInterior_iff.2 b)]
  simp only
  rw [F.edge h a, F.edge _ (mem_ints.1 i1).1, F.edge _ (mem_ints.1 i2).1, ht h a b]
  have n1 := V3.norm_sq ((pos (m.heVertex h)).sub (pos (m.heVertex (m.heNext h))))
  have n2 := V3.norm_sq ((pos (m.heVertex (m.heNext h))).sub (pos (m.heVertex (m.heNext (m.heNext h)))))
  have n3 := V3.norm_sq ((pos (m.heVertex (m.heNext (m.heNext h)))).sub (pos (m.heVertex h)))
  rw [show ∀ x : ℝ, -x * x = -(x * x) by intro x; ring, n1, n2, n3]
  have e : (((pos (m.heVertex h)).sub (pos (m.heVertex (m.heNext (m.heNext h))))).cross
      ((pos (m.heVertex (m.heNext h))).sub (pos (m.heVertex (m.heNext (m.heNext h)))))).norm = 2 * m.faceArea len (m.heFace h) := by
    rw [ar]; ring
  rw [e]
  field_simp
  unfold V3.dot V3.sub
  ring

/-- The cosine of a corner from positions. -/
theorem corner3 {len : ℕ → ℝ} (hv : m.Valid) (ht : m.TriFaces) (F : m.FaceLengths pos len) {h : ℕ} (hh : h ∈ m.ints) :
    m.cornerAngleP pos h = m.cornerAngle len h := by
  obtain ⟨a, b⟩ := mem_ints.1 hh
  have i1 := int_next hv hh
  have i2 := int_next hv i1
  unfold cornerAngleP cornerAngle
  simp only
  congr 2
  have m1 := F.metric h a b
  have pa := m1.pa
  have pc := m1.pc
  rw [F.edge h a] at pa ⊢
  rw [F.edge _ (mem_ints.1 i2).1, ht h a b] at pc ⊢
  rw [F.edge _ (mem_ints.1 i1).1]
  have n1 := V3.norm_sq ((pos (m.heVertex h)).sub (pos (m.heVertex (m.heNext h))))
  have n2 := V3.norm_sq ((pos (m.heVertex (m.heNext h))).sub (pos (m.heVertex (m.heNext (m.heNext h)))))
  have n3 := V3.norm_sq ((pos (m.heVertex (m.heNext (m.heNext h)))).sub (pos (m.heVertex h)))
  set P := pos (m.heVertex h)
  set Q := pos (m.heVertex (m.heNext h))
  set S := pos (m.heVertex (m.heNext (m.heNext h)))
  have e1 : (Q.sub P).normalize = (Q.sub P).smul (1 / (P.sub Q).norm) := by rw [V3.sub_comm_norm]; rfl
  have e2 : (S.sub P).normalize = (S.sub P).smul (1 / (S.sub P).norm) := rfl
  rw [e1, e2]
  have d : ((Q.sub P).smul (1 / (P.sub Q).norm)).dot ((S.sub P).smul (1 / (S.sub P).norm)) = (Q.sub P).dot (S.sub P) / ((P.sub Q).norm * (S.sub P).norm) := by
    simp only [V3.dot, V3.smul]; field_simp
  rw [d, n1, n2, n3, div_eq_div_iff (by positivity) (by positivity)]
  have : (P.sub Q).dot (P.sub Q) + (S.sub P).dot (S.sub P) - (Q.sub S).dot (Q.sub S) = 2 * (Q.sub P).dot (S.sub P) := by
    unfold V3.dot V3.sub; ring
  rw [this]; ring

/-- **C69.** On a triangle mesh without degenerate faces the edge lengths computed from the positions satisfy the strict triangle
inequalities, and the areas, angles and cotangent weights computed from the positions, cached or immediate, are those computed from the lengths.
So C64–C68 hold for geometry given by positions. -/
theorem C69_positions (m : Mesh) (pos : ℕ → V3) (hv : m.Valid) (ht : m.TriFaces) (hn : m.NonDegenerate pos) :
    ∃ len, m.edgeLengthsE pos = .ok len ∧ m.Metric len ∧
      (∀ h, m.heLive h → len (h / 2) = ((pos (m.heVertex h)).sub (pos (m.heVertex (m.heNext h)))).norm) ∧
      m.faceAreasE pos = m.faceAreas len ∧ m.cornerAnglesE pos = m.cornerAngles len ∧
      m.halfedgeCotanWeightsE pos = m.halfedgeCotanWeights len ∧ m.edgeCotanWeightsE pos = m.edgeCotanWeights len ∧
      (∀ e, m.heLive (2 * e) → m.edgeLengthP pos e = len e ∧
        ∃ w, m.edgeCotanWeights len = .ok w ∧ m.edgeCotanWeightP pos e = .ok (w e)) ∧
      (∀ f, m.fLive f → f < m.nFFill → m.faceAreaP pos f = m.faceArea len f) ∧
      (∀ h, m.heLive h → m.halfedgeCotanWeightP pos h = m.halfedgeCotanWeight len h ∧
        (¬ m.ext h → m.cornerAngleP pos h = m.cornerAngle len h)) := by
  obtain ⟨vs, hs, is, es, fs, R⟩ := hv.ranges
  obtain ⟨len, l1, l2, F⟩ := edgeLengthsE_ok hv ht hn R
  obtain ⟨A, a1, a2⟩ := faceAreas_ok (len := len) R
  obtain ⟨ca, c1, c2⟩ := cornerAngles_ok (len := len) R
  obtain ⟨w, w1, w2⟩ := halfedgeCotanWeights_ok (len := len) hv R
  obtain ⟨we, we1, we2⟩ := edgeCotanWeights_ok (len := len) hv R
  have fh : ∀ f ∈ m.faces, m.fHalfedge f ∈ m.ints ∧ m.heFace (m.fHalfedge f) = f := by
    intro f hf
    obtain ⟨q1, q2⟩ := mem_faces.1 hf
    obtain ⟨l0, e0⟩ := hv.f_he f q1
    exact ⟨mem_ints.2 ⟨l0, face_not_ext hv (by rw [e0]; exact q2)⟩, e0⟩
  have edgeSum : ∀ e, m.heLive (2 * e) → ∃ L, m.navEdgeInterior e = .ok L ∧ (∀ i ∈ L, i ∈ m.ints) ∧ (L.map (m.halfedgeCotanWeight len)).sum = we e := by
    intro e he
    have := nested_edges hv R
    have i0 : ¬ m.ext (2 * e) := hv.edge_int e he
    have lt : m.heLive (2 * e + 1) := by have := hv.twin_live _ he; rwa [twin_two_mul] at this
    refine ⟨_, C49_edge_interior m hv e he, fun i hi => ?_, ?_⟩
    · split at hi
      · rw [List.mem_singleton] at hi; subst hi; exact mem_ints.2 ⟨he, i0⟩
      · rename_i hx
        simp only [List.mem_cons, List.not_mem_nil, or_false] at hi
        rcases hi with rfl | rfl
        · exact mem_ints.2 ⟨he, i0⟩
        · exact mem_ints.2 ⟨lt, hx⟩
    · rw [we2]
      refine sum_of_nodup ?_ (fun i => ?_) _
      · split <;> simp
      · rw [mem_filter, mem_ints]
        have hE : heEdge i = e ↔ i = 2 * e ∨ i = 2 * e + 1 := by unfold heEdge; omega
        rw [hE]
        split
        · rename_i hx
          rw [List.mem_singleton]
          constructor
          · rintro rfl; exact ⟨⟨he, i0⟩, .inl rfl⟩
          · rintro ⟨⟨-, q⟩, rfl | rfl⟩
            · rfl
            · exact absurd hx q
        · rename_i hx
          simp only [List.mem_cons, List.not_mem_nil, or_false]
          constructor
          · rintro (rfl | rfl)
            · exact ⟨⟨he, i0⟩, .inl rfl⟩
            · exact ⟨⟨lt, hx⟩, .inr rfl⟩
          · exact fun h => h.2
  refine ⟨len, l1, F.metric, F.edge, ?_, ?_, ?_, ?_, fun e he => ⟨?_, we, we1, ?_⟩, fun f q1 q2 => ?_, fun h hl => ⟨?_, fun hx => corner3 hv ht F (mem_ints.2 ⟨hl, hx⟩)⟩⟩
  · -- areas
    rw [a1]
    unfold faceAreasE
    rw [R.f]
    show assignM _ _ fs = _
    rw [assignM_ok (f := m.faceArea len)]
    · congr 1; funext f; rw [assign_apply, a2]; simp only [R.mf]
    · intro f hf
      have hf := (R.mf f).1 hf
      obtain ⟨i0, e0⟩ := fh f hf
      simp only [nav_tri hv ht hf, bind, Except.bind]
      have := F.area _ i0
      rw [e0] at this
      rw [this]
      congr 2
      simp only [List.foldl_cons, List.foldl_nil]
      rw [ht _ (mem_ints.1 i0).1 (mem_ints.1 i0).2]
      congr 1
      simp only [V3.add, V3.cross, V3.sub]
      ext <;> simp only <;> ring
  · -- angles
    rw [c1]
    obtain ⟨r, r1, -, r2, r3⟩ := nested_faces hv R
    simp only [cornerAnglesE, bind, Except.bind, R.f, r1]
    congr 1
    funext x
    have key : ∀ (l : List (ℕ × ℕ)) (d : ℕ → ℝ), (∀ p ∈ l, p.2 ∈ m.ints) → (l.foldl (fun d p =>
        let he := p.2
        let pA := pos (m.heVertex he)
        let heNext := m.heNext he
        let pB := pos (m.heVertex heNext)
        let pC := pos (m.heVertex (m.heNext heNext))
        let q := (pC.sub pB).normalize.dot (pA.sub pB).normalize
        let angle := Real.arccos (clampR q (-1) 1)
        Function.update d heNext angle) d) x = if ∃ p ∈ l, m.heNext p.2 = x then m.cornerAngle len x else d x := by
      intro l
      induction l with
      | nil => intro d _; simp
      | cons p l ih =>
        intro d hp
        have ip := hp p List.mem_cons_self
        rw [List.foldl_cons, ih _ (fun q hq => hp q (List.mem_cons_of_mem _ hq))]
        by_cases q : ∃ p ∈ l, m.heNext p.2 = x
        · obtain ⟨z, z1, z2⟩ := q
          rw [if_pos ⟨z, z1, z2⟩, if_pos ⟨z, List.mem_cons_of_mem _ z1, z2⟩]
        · rw [if_neg q]
          by_cases e : m.heNext p.2 = x
          · rw [if_pos ⟨p, List.mem_cons_self, e⟩]
            rw [e, Function.update_self, ← corner3 hv ht F (e ▸ int_next hv ip)]
            unfold cornerAngleP
            simp only
            rw [← e, ht _ (mem_ints.1 ip).1 (mem_ints.1 ip).2]
          · rw [if_neg]
            · rw [Function.update_of_ne (Ne.symm e)]
            · rintro ⟨z, z1, z2⟩
              rcases List.mem_cons.1 z1 with rfl | z1
              · exact e z2
              · exact q ⟨z, z1, z2⟩
    rw [key r _ (fun p hp => (r2 p hp).2), c2]
    congr 1
    apply propext
    constructor
    · rintro ⟨p, p1, rfl⟩
      exact int_next hv (r2 p p1).2
    · intro hx
      -- every interior halfedge is among the pairs
      obtain ⟨lx, xx⟩ := mem_ints.1 hx
      have iy := int_next hv (int_next hv hx)
      have : ∃ p ∈ r, p.2 = m.heNext (m.heNext x) := by
        by_contra z
        push Not at z
        have s := r3 (fun p => if p.2 = m.heNext (m.heNext x) then (1 : ℕ) else 0)
        rw [sum_ite_eq' m.ints (m.heNext (m.heNext x)), if_pos iy] at s
        have : (r.map (fun p => if p.2 = m.heNext (m.heNext x) then (1 : ℕ) else 0)).sum = 0 := by
          apply List.sum_eq_zero
          intro t ht'
          obtain ⟨p, p1, rfl⟩ := List.mem_map.1 ht'
          rw [if_neg (z p p1)]
        omega
      obtain ⟨p, p1, p2⟩ := this
      exact ⟨p, p1, by rw [p2]; exact ht x lx xx⟩
  · -- halfedge weights
    rw [w1]
    simp only [halfedgeCotanWeightsE, bind, Except.bind, R.i]
    congr 1
    funext i
    rw [assign_apply, w2]
    simp only [R.mi]
    split
    · rename_i hi
      rw [← cot3 hv ht F hi]
      unfold halfedgeCotanWeightP
      rw [if_pos (heInterior_iff.2 (mem_ints.1 hi).2)]
    · rfl
  · -- edge weights
    rw [we1]
    unfold edgeCotanWeightsE
    rw [R.e]
    show assignM _ _ es = _
    rw [assignM_ok (f := we)]
    · congr 1
      funext e
      rw [assign_apply]
      split
      · rfl
      · rename_i q
        rw [we2]
        refine (sum_eq_zero (fun i hi => ?_)).symm
        obtain ⟨h1, rfl⟩ := mem_filter.1 hi
        exact absurd ((R.me _).2 ((mem_edges hv).2 (edge_live hv (mem_ints.1 h1).1))) q
    · intro e he
      obtain ⟨L, k1, k2, k3⟩ := edgeSum e ((mem_edges hv).1 ((R.me e).1 he))
      simp only [k1, bind, Except.bind]
      congr 1
      rw [← k3]
      have key : ∀ (l : List ℕ) (s : ℝ), (∀ i ∈ l, i ∈ m.ints) → l.foldl (fun cotSum he =>
          let pB := pos (m.heVertex he)
          let he := m.heNext he
          let pC := pos (m.heVertex he)
          let he := m.heNext he
          let pA := pos (m.heVertex he)
          let vecR := pB.sub pA
          let vecL := pC.sub pA
          let cotValue := vecR.dot vecL / (vecR.cross vecL).norm
          cotSum + cotValue / 2) s = s + (l.map (m.halfedgeCotanWeight len)).sum := by
        intro l
        induction l with
        | nil => intro s _; simp
        | cons i l ih =>
          intro s hl
          have hi := hl i List.mem_cons_self
          rw [List.foldl_cons, ih _ (fun j hj => hl j (List.mem_cons_of_mem _ hj)), List.map_cons, List.sum_cons, ← cot3 hv ht F hi]
          unfold halfedgeCotanWeightP
          rw [if_pos (heInterior_iff.2 (mem_ints.1 hi).2)]
          simp only
          ring
      rw [key L 0 k2, zero_add]
  · rw [l2, if_pos ((mem_edges hv).2 he)]
  · obtain ⟨L, k1, k2, k3⟩ := edgeSum e he
    simp only [edgeCotanWeightP, k1, bind, Except.bind]
    rw [foldl_add, zero_add, ← k3]
    congr 2
    exact List.map_congr_left (fun i hi => cot3 hv ht F (k2 i hi))
  · obtain ⟨i0, e0⟩ := fh f (mem_faces.2 ⟨q1, q2⟩)
    have := F.area _ i0
    rw [e0] at this
    rw [this]
    rfl
  · by_cases hx : m.ext h
    · unfold halfedgeCotanWeightP halfedgeCotanWeight
      rw [if_neg (fun q => heInterior_iff.1 q hx), if_neg (fun q => heInterior_iff.1 q hx)]
    · exact cot3 hv ht F (mem_ints.2 ⟨hl, hx⟩)

/-- The corners of the standard tetrahedron. -/
noncomputable def tetraPos : ℕ → V3
  | 0 => ⟨0, 0, 0⟩
  | 1 => ⟨1, 0, 0⟩
  | 2 => ⟨0, 1, 0⟩
  | _ => ⟨0, 0, 1⟩

/-- The hypotheses of C69. -/
theorem tetraPos_nonDegenerate : tetra.NonDegenerate tetraPos := by
  intro h hl _
  have d := (by decide +kernel : ∀ h < 12, tetra.heVertex (tetra.heNext h) ≠ tetra.heVertex h ∧
    tetra.heVertex (tetra.heNext (tetra.heNext h)) ≠ tetra.heVertex h ∧
    tetra.heVertex (tetra.heNext (tetra.heNext h)) ≠ tetra.heVertex (tetra.heNext h) ∧ tetra.heVertex h < 4 ∧ tetra.heVertex (tetra.heNext h) < 4 ∧
    tetra.heVertex (tetra.heNext (tetra.heNext h)) < 4) h hl.1
  have key : ∀ a b c : ℕ, a < 4 → b < 4 → c < 4 → b ≠ a → c ≠ a → c ≠ b →
      ((tetraPos b).sub (tetraPos a)).cross ((tetraPos c).sub (tetraPos a)) ≠ ⟨0, 0, 0⟩ := by
    intro a b c ha hb hc h1 h2 h3
    interval_cases a <;> interval_cases b <;> interval_cases c <;> simp_all [tetraPos, V3.sub, V3.cross]
  exact key _ _ _ d.2.2.2.1 d.2.2.2.2.1 d.2.2.2.2.2 d.1 d.2.1 d.2.2.1

example : tetra.Valid ∧ tetra.TriFaces ∧ tetra.NonDegenerate tetraPos := ⟨tetra_valid, tetra_tri, tetraPos_nonDegenerate⟩

end Mesh
end GC
