import Verif.Tangent
import Verif.Props.DEC
import Verif.Props.Vec

/-! # C67: tangent spaces, parallel transport and holonomy -/

namespace GC
open Classical Finset

/-- A loop whose step writes the values `val` at the places `S f`. -/
theorem foldl_local {δ : Type} {step : (ℕ → δ) → ℕ → ℕ → δ} {S : ℕ → ℕ → Prop} {val : ℕ → δ} {l : List ℕ}
    (h1 : ∀ d, ∀ f ∈ l, ∀ x, S f x → step d f x = val x) (h2 : ∀ d, ∀ f ∈ l, ∀ x, ¬ S f x → step d f x = d x) (d : ℕ → δ) (x : ℕ) :
    l.foldl step d x = if ∃ f ∈ l, S f x then val x else d x := by
  induction l generalizing d with
  | nil => simp
  | cons a l ih =>
    rw [List.foldl_cons, ih (fun d f hf => h1 d f (List.mem_cons_of_mem _ hf)) (fun d f hf => h2 d f (List.mem_cons_of_mem _ hf))]
    by_cases q : ∃ f ∈ l, S f x
    · obtain ⟨f, a1, a2⟩ := q
      rw [if_pos ⟨f, a1, a2⟩, if_pos ⟨f, List.mem_cons_of_mem _ a1, a2⟩]
    · rw [if_neg q]
      by_cases r : S a x
      · rw [if_pos ⟨a, List.mem_cons_self, r⟩, h1 d a List.mem_cons_self x r]
      · rw [h2 d a List.mem_cons_self x r, if_neg]
        rintro ⟨f, a1, a2⟩
        rcases List.mem_cons.1 a1 with rfl | a1
        · exact r a2
        · exact q ⟨f, a1, a2⟩

/-- The apex of a triangle laid out from its lengths. -/
theorem apex {a b c : ℝ} (h : TriOK a b c) :
    (if b * b > a * a + c * c then Real.sqrt (max 0 (c * c - 2 * triangleArea a b c / a * (2 * triangleArea a b c / a))) * -1
      else Real.sqrt (max 0 (c * c - 2 * triangleArea a b c / a * (2 * triangleArea a b c / a)))) = (a * a + c * c - b * b) / (2 * a) ∧
    ((a * a + c * c - b * b) / (2 * a)) * ((a * a + c * c - b * b) / (2 * a)) +
      2 * triangleArea a b c / a * (2 * triangleArea a b c / a) = c * c := by
  have pa := h.pa
  have hs := h.swap.area_sq
  have e2 : triangleArea a c b = triangleArea a b c := by unfold triangleArea; congr 2; ring
  rw [e2] at hs
  set A := triangleArea a b c
  set x := (a * a + c * c - b * b) / (2 * a) with hx
  have e : c * c - 2 * A / a * (2 * A / a) = x ^ 2 := by
    rw [hx]; field_simp; linear_combination (-1 : ℝ) * hs
  refine ⟨?_, by linarith [e]⟩
  rw [e, max_eq_right (sq_nonneg x), Real.sqrt_sq_eq_abs]
  split
  · rename_i q
    rw [abs_of_neg (div_neg_of_neg_of_pos (by linarith) (by linarith))]; ring
  · rename_i q
    rw [abs_of_nonneg (div_nonneg (by linarith) (by linarith))]

/-- The rotation that takes one vector to minus another of the same length. -/
theorem rot_spec {a b : V2} (h : a.norm = b.norm) (h0 : 0 < a.norm) :
    ((b.neg.div a).normalize.mul a = b.neg ∧ (b.neg.div a).normalize.inv.mul b = a.neg) ∧
    (b.neg.div a).normalize.norm = 1 ∧ (b.neg.div a).normalize.inv.norm = 1 ∧
    (b.neg.div a).normalize.mul (b.neg.div a).normalize.inv = ⟨1, 0⟩ := by
  have na : a.toC ≠ 0 := by rw [← norm_pos_iff, V2.norm_toC]; exact h0
  have nb : b.toC ≠ 0 := by rw [← norm_pos_iff, V2.norm_toC, ← h]; exact h0
  have e1 : (b.neg.div a).toC = -b.toC / a.toC := by
    rw [(C42_vector2_complex b.neg a 0).2.2.2.2.2.2.1 na, (C42_vector2_complex b a 0).2.2.2.2.1]
  have n1 : (b.neg.div a).norm = 1 := by
    rw [← V2.norm_toC, e1, norm_div, norm_neg, V2.norm_toC, V2.norm_toC, ← h, div_self h0.ne']
  have ne : (b.neg.div a).toC ≠ 0 := by rw [e1]; exact div_ne_zero (neg_ne_zero.2 nb) na
  have e2 : (b.neg.div a).normalize.toC = -b.toC / a.toC := by
    have := V2.normalize_eq ne
    rw [n1, e1] at this
    simpa using this
  set r := (b.neg.div a).normalize
  have nr : r.toC ≠ 0 := by rw [e2]; exact div_ne_zero (neg_ne_zero.2 nb) na
  have e3 : r.inv.toC = r.toC⁻¹ := (C42_vector2_complex r a 0).2.2.2.2.2.2.2.2.1 nr
  have nn : ‖r.toC‖ = 1 := by rw [e2, norm_div, norm_neg, V2.norm_toC, V2.norm_toC, ← h, div_self h0.ne']
  refine ⟨⟨V2.toC_inj ?_, V2.toC_inj ?_⟩, by rw [← V2.norm_toC, nn], by rw [← V2.norm_toC, e3, norm_inv, nn, inv_one], V2.toC_inj ?_⟩
  · rw [(C42_vector2_complex r a 0).2.2.1, e2, (C42_vector2_complex b a 0).2.2.2.2.1, div_mul_cancel₀ _ na]
  · rw [(C42_vector2_complex r.inv b 0).2.2.1, e3, e2, (C42_vector2_complex a b 0).2.2.2.2.1]
    field_simp
  · rw [(C42_vector2_complex r r.inv 0).2.2.1, e3, mul_inv_cancel₀ nr]; rfl

/-- The corner angle in a planar layout. -/
theorem corner_rot {a b c : V2} (hs : a.add (b.add c) = ⟨0, 0⟩) (h : TriOK a.norm b.norm c.norm)
    (hc : a.cross b = 2 * triangleArea a.norm b.norm c.norm) :
    -c.toC * a.norm = Complex.exp (cang a.norm b.norm c.norm * Complex.I) * (a.toC * c.norm) := by
  obtain ⟨-, -, h1, h2⟩ := cang_spec h
  have pa := h.pa; have pc := h.pc
  have sx : a.x + (b.x + c.x) = 0 := congrArg V2.x hs
  have sy : a.y + (b.y + c.y) = 0 := congrArg V2.y hs
  have na := V2.norm_sq a
  have nb := V2.norm_sq b
  have nc := V2.norm_sq c
  set la := a.norm
  set lb := b.norm
  set lc := c.norm
  set th := cang la lb lc
  have ex : b.x = -a.x - c.x := by linarith
  have ey : b.y = -a.y - c.y := by linarith
  unfold V2.cross at hc
  rw [ex, ey] at hc nb
  -- the products
  have k1 : la * lc * Real.cos th = -(a.x * c.x + a.y * c.y) := by
    rw [h1]; field_simp; linear_combination na + nc - nb
  have k2 : la * lc * Real.sin th = a.y * c.x - a.x * c.y := by
    rw [h2]; field_simp; linear_combination (-1 : ℝ) * hc
  rw [Complex.exp_mul_I, ← Complex.ofReal_cos, ← Complex.ofReal_sin]
  have g1 : -c.x * la * la = la * lc * Real.cos th * a.x - la * lc * Real.sin th * a.y := by
    rw [k1, k2]; linear_combination (-c.x) * na
  have g2 : -c.y * la * la = la * lc * Real.cos th * a.y + la * lc * Real.sin th * a.x := by
    rw [k1, k2]; linear_combination (-c.y) * na
  apply Complex.ext
  · have : -c.x * la = Real.cos th * (a.x * lc) - Real.sin th * (a.y * lc) := by
      apply mul_right_cancel₀ pa.ne'; linear_combination g1
    simpa [-Complex.ofReal_cos, -Complex.ofReal_sin, V2.toC] using this
  · have : -c.y * la = Real.cos th * (a.y * lc) + Real.sin th * (a.x * lc) := by
      apply mul_right_cancel₀ pa.ne'; linear_combination g2
    simpa [-Complex.ofReal_cos, -Complex.ofReal_sin, V2.toC] using this

namespace Mesh
variable {m : Mesh} {len : ℕ → ℝ} {nan : V2} {vs hs is es fs : List ℕ}

/-- The halfedges of a triangle are distinct. -/
theorem tri_distinct (hv : m.Valid) (ht : m.TriFaces) {h : ℕ} (hh : h ∈ m.ints) :
    m.heNext h ≠ h ∧ m.heNext (m.heNext h) ≠ h ∧ m.heNext (m.heNext h) ≠ m.heNext h := by
  obtain ⟨l0, x0⟩ := mem_ints.1 hh
  refine ⟨hv.deg_two h l0, fun e => ?_, hv.deg_two _ (hv.next_live h l0)⟩
  have t := ht h l0 x0
  rw [e] at t
  exact hv.deg_two h l0 t

theorem faceVectors_other (A : ℕ → ℝ) (d : ℕ → V2) {f x : ℕ}
    (h : ¬ (x = m.fHalfedge f ∨ x = m.heNext (m.fHalfedge f) ∨ x = m.heNext (m.heNext (m.fHalfedge f)))) :
    m.faceVectors len A d f x = d x := by
  push Not at h
  unfold faceVectors
  simp only [Function.update_apply]
  rw [if_neg h.2.2, if_neg h.2.1, if_neg h.1]

theorem faceVectors_same (A : ℕ → ℝ) (d d' : ℕ → V2) {f x : ℕ}
    (h : x = m.fHalfedge f ∨ x = m.heNext (m.fHalfedge f) ∨ x = m.heNext (m.heNext (m.fHalfedge f))) :
    m.faceVectors len A d f x = m.faceVectors len A d' f x := by
  unfold faceVectors
  simp only [Function.update_apply]
  split
  · rfl
  · split
    · rfl
    · split
      · rfl
      · tauto

theorem halfedgeVectorsInFace_ok (hv : m.Valid) (ht : m.TriFaces) (hm : m.Metric len) (R : m.Ranges vs hs is es fs) :
    ∃ vec, m.halfedgeVectorsInFace len nan = .ok vec ∧ m.Layout len vec ∧
      (∀ h ∈ m.ints, (vec h).cross (vec (m.heNext h)) = 2 * m.faceArea len (m.heFace h)) ∧
      (∀ f ∈ m.faces, vec (m.fHalfedge f) = ⟨len (m.fHalfedge f / 2), 0⟩) ∧ ∀ h, m.heLive h → m.ext h → vec h = nan := by
  obtain ⟨A, a1, a2⟩ := faceAreas_ok (len := len) R
  obtain ⟨-, -, -, ⟨xs, x1, x2, -⟩, -⟩ := C16_ranges m hv
  set vec := assign (fs.foldl (m.faceVectors len A) (fun _ => ⟨0, 0⟩)) (fun _ => nan) xs with hvec
  have fh : ∀ f ∈ m.faces, m.fHalfedge f ∈ m.ints ∧ m.heFace (m.fHalfedge f) = f := by
    intro f hf
    obtain ⟨q1, q2⟩ := mem_faces.1 hf
    obtain ⟨l0, e0⟩ := hv.f_he f q1
    exact ⟨mem_ints.2 ⟨l0, face_not_ext hv (by rw [e0]; exact q2)⟩, e0⟩
  have cyc : ∀ f ∈ m.faces, ∀ x, (x = m.fHalfedge f ∨ x = m.heNext (m.fHalfedge f) ∨ x = m.heNext (m.heNext (m.fHalfedge f))) → m.heFace x = f := by
    intro f hf x hx
    obtain ⟨i0, e0⟩ := fh f hf
    have l0 := (mem_ints.1 i0).1
    rcases hx with rfl | rfl | rfl
    · exact e0
    · rw [hv.face_next l0, e0]
    · rw [hv.face_next (hv.next_live _ l0), hv.face_next l0, e0]
  have val : ∀ f ∈ m.faces, ∀ x, (x = m.fHalfedge f ∨ x = m.heNext (m.fHalfedge f) ∨ x = m.heNext (m.heNext (m.fHalfedge f))) →
      vec x = m.faceVectors len A (fun _ => ⟨0, 0⟩) f x := by
    intro f hf x hx
    have fx := cyc f hf x hx
    have nx : x ∉ xs := fun q => by
      have := (x2.2 x).1 q
      exact face_not_ext hv (by rw [fx]; exact (mem_faces.1 hf).2) this.2
    rw [hvec, assign_apply, if_neg nx]
    rw [foldl_local (S := fun f x => x = m.fHalfedge f ∨ x = m.heNext (m.fHalfedge f) ∨ x = m.heNext (m.heNext (m.fHalfedge f)))
      (val := fun x => m.faceVectors len A (fun _ => ⟨0, 0⟩) (m.heFace x) x)]
    · rw [if_pos ⟨f, (R.mf f).2 hf, hx⟩, fx]
    · intro d g hg y hy
      rw [cyc g ((R.mf g).1 hg) y hy]
      exact faceVectors_same A _ _ hy
    · intro d g _ y hy
      exact faceVectors_other A d hy
  -- the three vectors of a face
  have tri : ∀ f ∈ m.faces, ∃ x y : ℝ,
      vec (m.fHalfedge f) = ⟨len (heEdge (m.fHalfedge f)), 0⟩ ∧
      vec (m.heNext (m.fHalfedge f)) = ⟨x - len (heEdge (m.fHalfedge f)), y⟩ ∧
      vec (m.heNext (m.heNext (m.fHalfedge f))) = ⟨-x, -y⟩ ∧
      x = (len (heEdge (m.fHalfedge f)) * len (heEdge (m.fHalfedge f)) +
        len (heEdge (m.heNext (m.heNext (m.fHalfedge f)))) * len (heEdge (m.heNext (m.heNext (m.fHalfedge f)))) -
        len (heEdge (m.heNext (m.fHalfedge f))) * len (heEdge (m.heNext (m.fHalfedge f)))) / (2 * len (heEdge (m.fHalfedge f))) ∧
      y = 2 * m.faceArea len f / len (heEdge (m.fHalfedge f)) ∧
      x * x + y * y = len (heEdge (m.heNext (m.heNext (m.fHalfedge f)))) * len (heEdge (m.heNext (m.heNext (m.fHalfedge f)))) := by
    intro f hf
    obtain ⟨i0, -⟩ := fh f hf
    obtain ⟨d1, d2, d3⟩ := tri_distinct hv ht i0
    obtain ⟨p1, p2⟩ := apex (hm _ (mem_ints.1 i0).1 (mem_ints.1 i0).2)
    have eA : A f = m.faceArea len f := by rw [a2, if_pos hf]
    refine ⟨_, _, ?_, ?_, ?_, rfl, rfl, p2⟩
    · rw [val f hf _ (.inl rfl)]
      unfold faceVectors
      simp only [Function.update_apply]
      rw [if_neg d2.symm, if_neg d1.symm, if_pos trivial]
    · rw [val f hf _ (.inr (.inl rfl))]
      unfold faceVectors
      simp only [Function.update_apply]
      rw [if_neg d3.symm, if_pos trivial, eA, ← p1]
      unfold V2.sub
      ext
      · rfl
      · exact sub_zero _
    · rw [val f hf _ (.inr (.inr rfl))]
      unfold faceVectors
      simp only [Function.update_apply]
      rw [if_pos trivial, eA, ← p1]
      rfl
  have lpos : ∀ h ∈ m.ints, 0 < len (heEdge h) := fun h hh => (hm h (mem_ints.1 hh).1 (mem_ints.1 hh).2).pa
  have all : ∀ h ∈ m.ints, (vec h).norm = len (heEdge h) ∧ (vec h).add ((vec (m.heNext h)).add (vec (m.heNext (m.heNext h)))) = ⟨0, 0⟩ ∧
      (vec h).cross (vec (m.heNext h)) = 2 * m.faceArea len (m.heFace h) := by
    intro h hh
    have hf := int_face hv hh
    obtain ⟨i0, e0⟩ := fh _ hf
    obtain ⟨l0, x0⟩ := mem_ints.1 i0
    obtain ⟨x, y, v1, v2, v3, ex, ey, exy⟩ := tri _ hf
    have t := ht _ l0 x0
    have pa := lpos _ i0
    have pb := lpos _ (int_next hv i0)
    have pc := lpos _ (int_next hv (int_next hv i0))
    have cs := hv.tri_mem l0 (mem_ints.1 hh).1 t e0.symm
    set f := m.heFace h
    set a := m.fHalfedge f
    have exl : 2 * len (heEdge a) * x = len (heEdge a) * len (heEdge a) +
        len (heEdge (m.heNext (m.heNext a))) * len (heEdge (m.heNext (m.heNext a))) - len (heEdge (m.heNext a)) * len (heEdge (m.heNext a)) := by
      rw [ex]; field_simp
    have eyl : len (heEdge a) * y = 2 * m.faceArea len f := by rw [ey]; field_simp
    have n1 : (vec a).norm = len (heEdge a) := by
      rw [v1]; unfold V2.norm; rw [show len (heEdge a) * len (heEdge a) + 0 * 0 = len (heEdge a) ^ 2 by ring]
      exact Real.sqrt_sq pa.le
    have n2 : (vec (m.heNext a)).norm = len (heEdge (m.heNext a)) := by
      rw [v2]; unfold V2.norm
      rw [show (x - len (heEdge a)) * (x - len (heEdge a)) + y * y = len (heEdge (m.heNext a)) ^ 2 by linear_combination exy - exl]
      exact Real.sqrt_sq pb.le
    have n3 : (vec (m.heNext (m.heNext a))).norm = len (heEdge (m.heNext (m.heNext a))) := by
      rw [v3]; unfold V2.norm
      rw [show -x * -x + -y * -y = len (heEdge (m.heNext (m.heNext a))) ^ 2 by linear_combination exy]
      exact Real.sqrt_sq pc.le
    rcases cs with q | q | q
    · rw [q]
      refine ⟨n1, ?_, ?_⟩
      · rw [v1, v2, v3]; unfold V2.add; ext <;> simp; ring
      · rw [v1, v2]; unfold V2.cross; linear_combination eyl
    · rw [q]
      refine ⟨n2, ?_, ?_⟩
      · rw [t, v1, v2, v3]; unfold V2.add; ext <;> simp
      · rw [v2, v3]; unfold V2.cross; linear_combination eyl
    · rw [q]
      refine ⟨n3, ?_, ?_⟩
      · rw [t, v1, v2, v3]; unfold V2.add; ext <;> simp
      · rw [t, v3, v1]; unfold V2.cross; linear_combination eyl
  refine ⟨vec, ?_, ⟨fun h a b => (all h (mem_ints.2 ⟨a, b⟩)).1, fun h a b => (all h (mem_ints.2 ⟨a, b⟩)).2.1⟩, fun h hh => (all h hh).2.2,
    fun f hf => ?_, fun h a b => ?_⟩
  · simp only [halfedgeVectorsInFace, bind, Except.bind, a1, R.f, x1]; rfl
  · obtain ⟨x, y, v1, -⟩ := tri f hf; exact v1
  · rw [hvec, assign_apply, if_pos ((x2.2 h).2 ⟨a, b⟩)]

/-- The transport loops. -/
theorem transport_apply {vec : ℕ → V2} {cond : ℕ → Prop} [DecidablePred cond] {l : List ℕ} (d : ℕ → V2) (h : ℕ) :
    l.foldl (fun d e => if cond e then d else transport vec d e) d h =
      if heEdge h ∈ l ∧ ¬ cond (heEdge h) then
        (if h % 2 = 0 then ((vec (twin h)).neg.div (vec h)).normalize else ((vec h).neg.div (vec (twin h))).normalize.inv) else d h := by
  have key : ∀ d e x, transport vec d e x = if heEdge x = e then
      (if x % 2 = 0 then ((vec (twin x)).neg.div (vec x)).normalize else ((vec x).neg.div (vec (twin x))).normalize.inv) else d x := by
    intro d e x
    unfold transport
    simp only [Function.update_apply]
    unfold eHalfedge
    rw [twin_two_mul]
    by_cases q : heEdge x = e
    · rw [if_pos q]
      unfold heEdge at q
      rcases Nat.mod_two_eq_zero_or_one x with p | p
      · have ex : x = 2 * e := by omega
        subst ex
        rw [if_neg (by omega), if_pos rfl, if_pos p, twin_two_mul]
      · have ex : x = 2 * e + 1 := by omega
        subst ex
        rw [if_pos rfl, if_neg (by omega), ← twin_two_mul, twin_twin]
    · rw [if_neg q]
      unfold heEdge at q
      rw [if_neg (by omega), if_neg (by omega)]
  rw [foldl_local (S := fun e x => heEdge x = e ∧ ¬ cond e)
    (val := fun x => if x % 2 = 0 then ((vec (twin x)).neg.div (vec x)).normalize else ((vec x).neg.div (vec (twin x))).normalize.inv)]
  · congr 1
    apply propext
    constructor
    · rintro ⟨e, a, rfl, b⟩; exact ⟨a, b⟩
    · rintro ⟨a, b⟩; exact ⟨_, a, rfl, b⟩
  · rintro d e - x ⟨a, b⟩
    rw [if_neg b, key, if_pos a]
  · intro d e _ x q
    split
    · rfl
    · rename_i c
      rw [key, if_neg (fun z => q ⟨z, c⟩)]

theorem transport_spec {vec : ℕ → V2} {tr : ℕ → V2} {h : ℕ}
    (e1 : ∀ x, x = h ∨ x = twin h → tr x = if x % 2 = 0 then ((vec (twin x)).neg.div (vec x)).normalize
      else ((vec x).neg.div (vec (twin x))).normalize.inv)
    (n : (vec h).norm = (vec (twin h)).norm) (p : 0 < (vec h).norm) :
    (tr h).mul (vec h) = (vec (twin h)).neg ∧ (tr h).norm = 1 ∧ (tr (twin h)).mul (tr h) = ⟨1, 0⟩ := by
  have comm : ∀ a b : V2, a.mul b = b.mul a := by intro a b; unfold V2.mul; ext <;> simp <;> ring
  rw [e1 h (.inl rfl), e1 (twin h) (.inr rfl), twin_twin]
  rcases Nat.mod_two_eq_zero_or_one h with q | q
  · have q' : ¬ twin h % 2 = 0 := by
      have : h = 2 * (h / 2) := by omega
      rw [this, twin_two_mul]; omega
    rw [if_pos q, if_neg q']
    obtain ⟨⟨a, b⟩, c, d, e⟩ := rot_spec n p
    exact ⟨a, c, by rw [comm]; exact e⟩
  · have q' : twin h % 2 = 0 := by
      have : h = 2 * (h / 2) + 1 := by omega
      rw [this, ← twin_two_mul, twin_twin]; omega
    rw [if_neg (by omega), if_pos q']
    obtain ⟨⟨a, b⟩, c, d, e⟩ := rot_spec n.symm (by rw [← n]; exact p)
    exact ⟨b, d, e⟩

theorem heEdge_twin (h : ℕ) : heEdge (twin h) = heEdge h := by
  unfold heEdge
  rcases Nat.mod_two_eq_zero_or_one h with q | q
  · have : h = 2 * (h / 2) := by omega
    conv_lhs => rw [this, twin_two_mul]
    omega
  · have : h = 2 * (h / 2) + 1 := by omega
    conv_lhs => rw [this, ← twin_two_mul, twin_twin]
    omega

theorem len_pos (hv : m.Valid) (hm : m.Metric len) {h : ℕ} (hl : m.heLive h) : 0 < len (heEdge h) := by
  by_cases x : m.ext h
  · have := (hm _ (hv.twin_live h hl) (hv.ext_twin hl x)).pa
    rwa [heEdge_twin] at this
  · exact (hm h hl x).pa

/-- **C67, faces.** `halfedgeVectorsInFace` lays each face out in the plane: the vectors have the lengths of the edges, close up, are
oriented counterclockwise and the first lies along the x-axis. `transportVectorsAcrossHalfedge` is, for each halfedge between two faces, the
rotation that identifies the shared edge, and inverse for the twin. -/
theorem C67_faces (m : Mesh) (len : ℕ → ℝ) (nan : V2) (hv : m.Valid) (ht : m.TriFaces) (hm : m.Metric len) :
    ∃ vec tr A, m.halfedgeVectorsInFace len nan = .ok vec ∧ m.transportVectorsAcrossHalfedge len nan = .ok tr ∧ m.faceAreas len = .ok A ∧
      (∀ h, m.heLive h → ¬ m.ext h → (vec h).norm = len (h / 2) ∧
        (vec h).add ((vec (m.heNext h)).add (vec (m.heNext (m.heNext h)))) = ⟨0, 0⟩ ∧
        (vec h).cross (vec (m.heNext h)) = 2 * A (m.heFace h) ∧ 0 < A (m.heFace h)) ∧
      (∀ f, m.fLive f → f < m.nFFill → vec (m.fHalfedge f) = ⟨len (m.fHalfedge f / 2), 0⟩) ∧
      (∀ h, m.heLive h → ¬ m.ext h → ¬ m.ext (twin h) →
        (tr h).mul (vec h) = (vec (twin h)).neg ∧ (tr h).norm = 1 ∧ (tr (twin h)).mul (tr h) = ⟨1, 0⟩) ∧
      (∀ h, m.heLive h → m.ext h → vec h = nan ∧ tr h = nan ∧ tr (twin h) = nan) := by
  obtain ⟨vs, hs, is, es, fs, R⟩ := hv.ranges
  obtain ⟨A, a1, a2⟩ := faceAreas_ok (len := len) R
  obtain ⟨vec, v1, v2, v3, v4, v5⟩ := halfedgeVectorsInFace_ok (nan := nan) hv ht hm R
  set tr := es.foldl (fun d e => if m.eIsBoundary e then d else transport vec d e) (fun _ => nan) with htr
  have tr1 : m.transportVectorsAcrossHalfedge len nan = .ok tr := by
    simp only [transportVectorsAcrossHalfedge, bind, Except.bind, v1, R.e]; rfl
  have bd : ∀ h, m.heLive h → (m.eIsBoundary (heEdge h) ↔ m.ext h ∨ m.ext (twin h)) := by
    intro h hl
    have ei := hv.edge_int (heEdge h) (edge_live hv hl)
    rw [← not_iff_not, not_bdy_iff]
    rcases Nat.mod_two_eq_zero_or_one h with q | q
    · have e : eHalfedge (heEdge h) = h := by unfold eHalfedge heEdge; omega
      rw [e] at ei ⊢; tauto
    · have e : eHalfedge (heEdge h) = twin h := by
        have : h = 2 * (h / 2) + 1 := by omega
        conv_rhs => rw [this, ← twin_two_mul, twin_twin]
        rfl
      rw [e] at ei ⊢; rw [twin_twin]; tauto
  have trv : ∀ h, m.heLive h → ¬ m.ext h → ¬ m.ext (twin h) → tr h = if h % 2 = 0 then ((vec (twin h)).neg.div (vec h)).normalize
      else ((vec h).neg.div (vec (twin h))).normalize.inv := by
    intro h hl x1 x2
    rw [htr, transport_apply (cond := m.eIsBoundary), if_pos]
    refine ⟨(R.me _).2 ((mem_edges hv).2 (edge_live hv hl)), fun q => ?_⟩
    rcases (bd h hl).1 q with z | z
    · exact x1 z
    · exact x2 z
  refine ⟨vec, tr, A, v1, tr1, a1, fun h a b => ?_, fun f a b => v4 f (mem_faces.2 ⟨a, b⟩), fun h a b c => ?_, fun h a b => ⟨v5 h a b, ?_, ?_⟩⟩
  · have hf := int_face hv (mem_ints.2 ⟨a, b⟩)
    refine ⟨v2.norm h a b, v2.close h a b, ?_, ?_⟩
    · rw [v3 h (mem_ints.2 ⟨a, b⟩), a2, if_pos hf]
    · rw [a2, if_pos hf]; exact faceArea_pos hv hm hf
  · have lt := hv.twin_live h a
    refine transport_spec ?_ ?_ ?_
    · rintro x (rfl | rfl)
      · exact trv _ a b c
      · exact trv _ lt c (by rw [twin_twin]; exact b)
    · rw [v2.norm h a b, v2.norm _ lt c]
      exact congrArg len (heEdge_twin h).symm
    · rw [v2.norm h a b]; exact len_pos hv hm a
  · rw [htr, transport_apply (cond := m.eIsBoundary), if_neg]
    exact fun q => q.2 ((bd h a).2 (.inl b))
  · rw [htr, transport_apply (cond := m.eIsBoundary), if_neg]
    rw [heEdge_twin]
    exact fun q => q.2 ((bd h a).2 (.inl b))

/-- **C67, scales.** The shape length scale is the square root of the area, the mesh length scale the mean edge length. -/
theorem C67_scales (m : Mesh) (len : ℕ → ℝ) (hv : m.Valid) (hm : m.Metric len) (h0 : 0 < m.nE) :
    ∃ s l A, m.shapeLengthScale len = .ok s ∧ m.meshLengthScale len = .ok l ∧ m.faceAreas len = .ok A ∧
      0 ≤ s ∧ s ^ 2 = ∑ f ∈ range m.nFFill with m.fLive f, A f ∧ l * m.nE = ∑ e ∈ range m.nEFill with m.heLive (2 * e), len e := by
  obtain ⟨vs, hs, is, es, fs, R⟩ := hv.ranges
  obtain ⟨A, a1, a2⟩ := faceAreas_ok (len := len) R
  have fold : ∀ (g : ℕ → ℝ) (l : List ℕ) (c : ℝ), l.foldl (fun s f => s + g f) c = c + (l.map g).sum := by
    intro g l
    induction l with
    | nil => intro c; simp
    | cons a l ih => intro c; rw [List.foldl_cons, ih, List.map_cons, List.sum_cons, add_assoc]
  have pos : (0 : ℝ) < m.nE := by exact_mod_cast h0
  refine ⟨Real.sqrt (∑ f ∈ m.faces, A f), (∑ e ∈ m.edges, len e) / m.nE, A, ?_, ?_, a1, Real.sqrt_nonneg _, ?_, div_mul_cancel₀ _ pos.ne'⟩
  · simp only [shapeLengthScale, bind, Except.bind, a1, R.f]
    rw [fold, zero_add, sum_of_nodup R.nf R.mf]
  · simp only [meshLengthScale, bind, Except.bind, R.e]
    rw [fold, zero_add, sum_of_nodup R.ne R.me]
  · exact Real.sq_sqrt (sum_nonneg (fun f hf => by rw [a2, if_pos hf]; exact (faceArea_pos hv hm hf).le))

/-- The hypotheses of C67: a closed mesh and one with boundary, both with unit lengths; an interior vertex, and edges. -/
example : tetra.Valid ∧ tetra.TriFaces ∧ tetra.Metric (fun _ => 1) ∧ 0 < tetra.nE ∧ square.Valid ∧ square.TriFaces ∧ square.Metric (fun _ => 1) ∧
    0 < square.nE ∧ tetra.vLive 0 ∧ ¬ tetra.OnBoundary 0 :=
  ⟨tetra_valid, tetra_tri, metric_one _, by decide, square_valid, square_tri, metric_one _, by decide, by decide +kernel, by
    rintro ⟨i, a, b, -⟩
    exact (by decide +kernel : ∀ i < 12, ¬ tetra.ext i) i a.1 b⟩

end Mesh
end GC
