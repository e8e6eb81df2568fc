import Verif.VectorHeat
import Verif.Props.HeatDistance
import Verif.Props.Connection

/-! # C93: the vector heat method -/

namespace GC
open Classical Finset

theorem accumC_apply {β : Type} (key : β → ℕ) (val : β → ℂ) (l : List β) (v : ℕ) :
    accumC key val l v = (l.map (fun x => if key x = v then val x else 0)).sum := by
  unfold accumC
  have : ∀ (l : List β) (d : ℕ → ℂ), (l.foldl (fun d x => Function.update d (key x) (d (key x) + val x)) d) v =
      d v + (l.map (fun x => if key x = v then val x else 0)).sum := by
    intro l
    induction l with
    | nil => simp
    | cons a l ih =>
      intro d
      rw [List.foldl_cons, ih, List.map_cons, List.sum_cons]
      by_cases h : key a = v
      · rw [if_pos h, ← h, Function.update_self]; ring
      · rw [if_neg h, Function.update_of_ne (Ne.symm h)]; ring
  rw [this, zero_add]

theorem toC_mul (u v : V2) : (u.mul v).toC = u.toC * v.toC := (C42_vector2_complex u v 0).2.2.1

theorem toC_smul (u : V2) (a : ℝ) : (u.smul a).toC = a * u.toC := by
  apply Complex.ext <;> simp [V2.smul, V2.toC, mul_comm]

theorem toC_normalize (u : V2) : u.normalize.toC = u.toC / ‖u.toC‖ := by
  rw [V2.normalize, toC_smul, V2.norm_toC, V2.norm]
  push_cast
  ring

theorem ofC_toC (z : ℂ) : (V2.ofC z).toC = z := rfl

theorem toC_inj {u v : V2} (h : u.toC = v.toC) : u = v := by
  cases u; cases v
  have h1 := congrArg Complex.re h
  have h2 := congrArg Complex.im h
  simp only [V2.toC] at h1 h2
  rw [h1, h2]

theorem pair_unit_row (M : ℕ → ℕ → ℂ) {n k i : ℕ} (hi : i < n) (y : ℕ → ℂ) :
    ∑ a ∈ range n, ∑ b ∈ range k, (if a = i then 1 else 0) * M a b * y b = ∑ b ∈ range k, M i b * y b := by
  rw [sum_eq_single i]
  · simp
  · intro b _ h; simp [h]
  · intro h; exact absurd (mem_range.2 hi) h

/-! ## The maximum principle -/

/-- A matrix with nonpositive entries off the diagonal and row sums zero, shifted by a positive diagonal, has a nonnegative inverse. -/
theorem heat_nonneg {n : ℕ} {M L : ℕ → ℕ → ℝ} {t : ℝ} (ht : 0 ≤ t) (md : ∀ i < n, 0 < M i i) (mo : ∀ i j, i ≠ j → M i j = 0) (row : ∀ i < n, ∑ j ∈ range n, L i j = 0)
    (off : ∀ i < n, ∀ j < n, i ≠ j → L i j ≤ 0) {x b : ℕ → ℝ} (hx : ∀ i < n, ∑ j ∈ range n, (M i j + t * L i j) * x j = b i) (hb : ∀ i < n, 0 ≤ b i) : ∀ i < n, 0 ≤ x i := by
  intro k hk
  obtain ⟨i, hi, hmin⟩ := exists_min_image (range n) x ⟨k, mem_range.2 hk⟩
  have hi' := mem_range.1 hi
  refine le_trans ?_ (hmin k (mem_range.2 hk))
  have e : ∑ j ∈ range n, (M i j + t * L i j) * x j = M i i * x i + t * ∑ j ∈ range n, L i j * (x j - x i) := by
    have e1 : ∑ j ∈ range n, M i j * x j = M i i * x i := sum_eq_single i (fun j _ h => by rw [mo i j (Ne.symm h), zero_mul]) (fun h => absurd hi h)
    simp only [add_mul, sum_add_distrib, mul_sub, sum_sub_distrib, ← sum_mul, row i hi', zero_mul, sub_zero, mul_assoc, ← mul_sum, e1]
  have le : ∑ j ∈ range n, L i j * (x j - x i) ≤ 0 := sum_nonpos (fun j hj => by
    by_cases h : i = j
    · rw [h, sub_self, mul_zero]
    · exact mul_nonpos_of_nonpos_of_nonneg (off i hi' j (mem_range.1 hj) h) (sub_nonneg.2 (hmin j hj)))
  have := hx i hi'
  rw [e] at this
  have h1 : 0 ≤ M i i * x i := by nlinarith [hb i hi', mul_nonneg ht (neg_nonneg.2 le)]
  exact nonneg_of_mul_nonneg_right h1 (md i hi')

/-- If moreover the kernel of the matrix is the constants, a right-hand side that is not zero has a positive solution. -/
theorem heat_pos {n : ℕ} {M L : ℕ → ℕ → ℝ} {t : ℝ} (ht : 0 < t) (md : ∀ i < n, 0 < M i i) (mo : ∀ i j, i ≠ j → M i j = 0) (row : ∀ i < n, ∑ j ∈ range n, L i j = 0)
    (sym : ∀ i < n, ∀ j < n, L i j = L j i) (off : ∀ i < n, ∀ j < n, i ≠ j → L i j ≤ 0)
    (ker : ∀ u : ℕ → ℝ, (∀ i < n, ∑ j ∈ range n, L i j * u j = 0) → ∀ i < n, ∀ j < n, u i = u j)
    {x b : ℕ → ℝ} (hx : ∀ i < n, ∑ j ∈ range n, (M i j + t * L i j) * x j = b i) (hb : ∀ i < n, 0 ≤ b i) (hne : ∃ i < n, b i ≠ 0) : ∀ i < n, 0 < x i := by
  have nn := heat_nonneg ht.le md mo row off hx hb
  by_contra c
  push Not at c
  obtain ⟨k, hk, hk0⟩ := c
  have zero : ∀ i < n, x i = 0 → ∀ j < n, L i j * x j = 0 := by
    intro i hi h0 j hj
    have e : ∑ j ∈ range n, (M i j + t * L i j) * x j = t * ∑ j ∈ range n, L i j * x j := by
      have e1 : ∑ j ∈ range n, M i j * x j = 0 := sum_eq_zero (fun j _ => by
        by_cases h : i = j
        · rw [← h, h0, mul_zero]
        · rw [mo i j h, zero_mul])
      simp only [add_mul, sum_add_distrib, mul_assoc, ← mul_sum, e1, zero_add]
    have le : ∀ j ∈ range n, L i j * x j ≤ 0 := fun j hj => by
      by_cases h : i = j
      · rw [← h, h0, mul_zero]
      · exact mul_nonpos_of_nonpos_of_nonneg (off i hi j (mem_range.1 hj) h) (nn j (mem_range.1 hj))
    have s0 : 0 ≤ ∑ j ∈ range n, L i j * x j := by
      have := hb i hi
      rw [← hx i hi, e] at this
      exact nonneg_of_mul_nonneg_right this ht
    exact (sum_eq_zero_iff_of_nonpos le).1 (le_antisymm (sum_nonpos le) s0) j (mem_range.2 hj)
  set z : ℕ → ℝ := fun i => if x i = 0 then 1 else 0 with hz
  have off0 : ∀ i < n, ∀ j < n, x i = 0 → x j ≠ 0 → L i j = 0 := fun i hi j hj h1 h2 => (mul_eq_zero.1 (zero i hi h1 j hj)).resolve_right h2
  have lz : ∀ i < n, ∑ j ∈ range n, L i j * z j = 0 := by
    intro i hi
    by_cases h : x i = 0
    · rw [← row i hi]
      refine sum_congr rfl (fun j hj => ?_)
      by_cases h' : x j = 0
      · simp only [hz, if_pos h', mul_one]
      · rw [off0 i hi j (mem_range.1 hj) h h', zero_mul]
    · refine sum_eq_zero (fun j hj => ?_)
      by_cases h' : x j = 0
      · rw [sym i hi j (mem_range.1 hj), off0 j (mem_range.1 hj) i hi h' h, zero_mul]
      · simp only [hz, if_neg h', mul_zero]
  have xk : x k = 0 := le_antisymm hk0 (nn k hk)
  have all : ∀ i < n, x i = 0 := by
    intro i hi
    have := ker z lz i hi k hk
    simp only [hz, if_pos xk] at this
    by_contra h
    rw [if_neg h] at this
    exact zero_ne_one this
  obtain ⟨i, hi, h⟩ := hne
  refine h ?_
  rw [← hx i hi]
  exact sum_eq_zero (fun j hj => by rw [all j (mem_range.1 hj), mul_zero])

namespace SPoint

/-- The point lies in the closed element it refers to. -/
def Inside : SPoint → Prop
  | .vertex _ => True
  | .edge _ t => 0 ≤ t ∧ t ≤ 1
  | .face _ c => 0 ≤ c.x ∧ 0 ≤ c.y ∧ 0 ≤ c.z ∧ c.x + c.y + c.z = 1

end SPoint

namespace Mesh
variable {m : Mesh} {len : ℕ → ℝ} {vs hs is es fs : List ℕ}

/-- No cotangent weight is negative: the triangulation is Delaunay. -/
def CotanNonneg (m : Mesh) (len : ℕ → ℝ) : Prop := ∀ w, m.edgeCotanWeights len = .ok w → ∀ e, m.heLive (2 * e) → 0 ≤ w e

/-- The share of the vertex with index `i` in the surface point. -/
noncomputable def share (m : Mesh) (ind : ℕ → ℕ) (p : SPoint) (i : ℕ) : ℝ := SPoint.interpolate m (fun v => if ind v = i then (1 : ℝ) else 0) p

theorem share_face (ind : ℕ → ℕ) (hv : m.Valid) (ht : m.TriFaces) {p : SPoint} (hp : p.On m) : ∃ f c, p.inSomeFace m = .face f c ∧ ∀ i, m.share ind p i = m.share ind (.face f c) i := by
  obtain ⟨f, c, e, -, -, -, hi⟩ := C40_inSomeFace m hv (tri_of_faces hv ht) p hp
  exact ⟨f, c, e, fun i => by unfold share; rw [← e, hi ℝ]⟩

theorem loop_real (ind : ℕ → ℕ) (hv : m.Valid) (ht : m.TriFaces) {sources : List (SPoint × ℝ)} (h : ∀ s ∈ sources, s.1.On m) (g : ℝ → ℝ) (i : ℕ) :
    accum (fun p => ind p.1) (fun p => p.2.1 * g p.2.2) (m.sourceLoop sources) i = (sources.map fun s => m.share ind s.1 i * g s.2).sum := by
  rw [accum_apply, sourceLoop, sum_flatMap]
  refine congrArg _ (List.map_congr_left (fun s hs => ?_))
  obtain ⟨f, c, e, sh⟩ := share_face ind hv ht (h s hs)
  rw [e, sh i]
  simp only [sourceEntries, share, SPoint.interpolate, List.map_cons, List.map_nil, List.sum_cons, List.sum_nil, smul_eq_mul]
  split_ifs <;> ring

theorem loop_complex {α : Type} (ind : ℕ → ℕ) (hv : m.Valid) (ht : m.TriFaces) {sources : List (SPoint × α)} (h : ∀ s ∈ sources, s.1.On m) (g : α → ℂ) (i : ℕ) :
    accumC (fun p => ind p.1) (fun p => (p.2.1 : ℂ) * g p.2.2) (m.sourceLoop sources) i = (sources.map fun s => (m.share ind s.1 i : ℂ) * g s.2).sum := by
  rw [accumC_apply, sourceLoop, sum_flatMap]
  refine congrArg _ (List.map_congr_left (fun s hs => ?_))
  obtain ⟨f, c, e, sh⟩ := share_face ind hv ht (h s hs)
  rw [e, sh i]
  simp only [sourceEntries, share, SPoint.interpolate, List.map_cons, List.map_nil, List.sum_cons, List.sum_nil, smul_eq_mul]
  split_ifs <;> push_cast <;> ring

theorem share_nonneg (ind : ℕ → ℕ) {p : SPoint} (hp : p.Inside) (i : ℕ) : 0 ≤ m.share ind p i := by
  have d : ∀ v, (0 : ℝ) ≤ if ind v = i then 1 else 0 := fun v => by split <;> norm_num
  cases p with
  | vertex v => exact d v
  | edge e t =>
    simp only [SPoint.Inside] at hp
    simp only [share, SPoint.interpolate, smul_eq_mul]
    have := mul_nonneg (sub_nonneg.2 hp.2) (d (m.heVertex (eHalfedge e)))
    have := mul_nonneg hp.1 (d (m.heVertex (twin (eHalfedge e))))
    linarith
  | face f c =>
    simp only [SPoint.Inside] at hp
    simp only [share, SPoint.interpolate, smul_eq_mul]
    have := mul_nonneg hp.1 (d (m.heVertex (m.fHalfedge f)))
    have := mul_nonneg hp.2.1 (d (m.heVertex (m.heNext (m.fHalfedge f))))
    have := mul_nonneg hp.2.2.1 (d (m.heVertex (m.heNext (m.heNext (m.fHalfedge f)))))
    linarith

theorem share_sum (hv : m.Valid) (R : m.Ranges vs hs is es fs) {p : SPoint} (hp : p.On m) (hi : p.Inside) : ∑ i ∈ range m.nV, m.share (number vs) p i = 1 := by
  have d : ∀ v, m.vLive v → ∑ i ∈ range m.nV, (if number vs v = i then (1 : ℝ) else 0) = 1 := fun v hl => by
    rw [sum_ite_eq, if_pos (mem_range.2 (R.iv.2.1 v hl))]
  cases p with
  | vertex v => exact d v hp
  | edge e t =>
    simp only [SPoint.On] at hp
    have d1 := d (m.heVertex (eHalfedge e)) (hv.vertex_live _ hp)
    have d2 := d (m.heVertex (twin (eHalfedge e))) (hv.vertex_live _ (hv.twin_live _ hp))
    simp only [share, SPoint.interpolate, smul_eq_mul, sum_add_distrib, ← mul_sum]
    rw [d1, d2]
    ring
  | face f c =>
    simp only [SPoint.Inside] at hi
    simp only [SPoint.On] at hp
    have l0 := (hv.f_he f hp.1).1
    simp only [share, SPoint.interpolate, smul_eq_mul, sum_add_distrib, ← mul_sum]
    rw [d _ (hv.vertex_live _ l0), d _ (hv.vertex_live _ (hv.next_live _ l0)), d _ (hv.vertex_live _ (hv.next_live _ (hv.next_live _ l0)))]
    linarith

/-- The form of the cotan Laplacian as a sum over the halfedges. -/
theorem cotan_rows (hv : m.Valid) (R : m.Ranges vs hs is es fs) : ∃ L w, m.cotanLaplacian len = .ok L ∧ m.edgeCotanWeights len = .ok w ∧
    ∀ x y : ℕ → ℝ, ∑ i ∈ range m.nV, ∑ j ∈ range m.nV, x i * L i j * y j =
      ∑ h ∈ m.hes, w (heEdge h) * (x (number vs (m.heVertex h)) * (y (number vs (m.heVertex h)) - y (number vs (m.heVertex (m.heNext h))))) := by
  obtain ⟨w, w1, w2⟩ := edgeCotanWeights_ok (len := len) hv R
  obtain ⟨L, l1, l2⟩ := cotanLaplacian_form (len := len) hv R
  refine ⟨L, w, l1, w1, fun x y => ?_⟩
  have mp : ∀ i ∈ m.ints, heEdge i ∈ m.edges := by
    intro i hi
    rw [mem_edges hv]
    have h1 := (mem_ints.1 hi).1
    rcases Nat.mod_two_eq_zero_or_one i with h | h
    · rwa [show 2 * heEdge i = i by unfold heEdge; omega]
    · have := hv.twin_live _ h1
      have e : i = 2 * (i / 2) + 1 := by omega
      rw [e, ← twin_two_mul, twin_twin] at this
      exact this
  rw [l2, ← sum_edges hv, ← sum_fiberwise_of_maps_to mp]
  refine sum_congr rfl (fun e he => ?_)
  have hl := (mem_edges hv).1 he
  have lt := hv.twin_live _ hl
  have v1 : m.heVertex (2 * e + 1) = m.heVertex (m.heNext (2 * e)) := by rw [hv.vertex_next hl, twin_two_mul]
  have v2 : m.heVertex (m.heNext (2 * e + 1)) = m.heVertex (2 * e) := by rw [← twin_two_mul, hv.vertex_next lt, twin_twin]
  have e1 : heEdge (2 * e) = e := by unfold heEdge; omega
  have e2 : heEdge (2 * e + 1) = e := by unfold heEdge; omega
  have : ∀ i ∈ ({i ∈ m.ints | heEdge i = e} : Finset ℕ), m.halfedgeCotanWeight len i * (m.diff (number vs) x i * m.diff (number vs) y i) =
      m.halfedgeCotanWeight len i * (m.diff (number vs) x (2 * e) * m.diff (number vs) y (2 * e)) := by
    intro i hi
    obtain ⟨a, b⟩ := mem_filter.1 hi
    rw [← diff_mul hv _ x y (mem_ints.1 a).1, b]
  rw [sum_congr rfl this, ← sum_mul, ← w2, e1, e2, v1, v2]
  simp only [diff]
  ring

/-- What the heat operator consists of. -/
structure HeatParts (m : Mesh) (len : ℕ → ℝ) (tCoef : ℝ) (ind : ℕ → ℕ) (t : ℝ) (M L : ℕ → ℕ → ℝ) : Prop where
  time : m.heatTime len tCoef = .ok t
  mass : m.vertexLumpedMassMatrix len = .ok M
  op : m.heatOp len tCoef = .ok fun i j => M i j + t * L i j
  t0 : 0 ≤ t
  tpos : 0 < tCoef → 0 < m.nV → 0 < t
  md : ∀ i < m.nV, 0 < M i i
  mo : ∀ i j, i ≠ j → M i j = 0
  sym : ∀ i < m.nV, ∀ j < m.nV, L i j = L j i
  row : ∀ i < m.nV, ∑ j ∈ range m.nV, L i j = 0
  off : m.CotanNonneg len → ∀ i < m.nV, ∀ j < m.nV, i ≠ j → L i j ≤ 0
  ker : m.AllJoined → ∀ u : ℕ → ℝ, (∀ i < m.nV, ∑ j ∈ range m.nV, L i j * u j = 0) → ∀ i < m.nV, ∀ j < m.nV, u i = u j
  lrow : ∃ w, m.edgeCotanWeights len = .ok w ∧ ∀ x y : ℕ → ℝ, ∑ i ∈ range m.nV, ∑ j ∈ range m.nV, x i * L i j * y j =
      ∑ h ∈ m.hes, w (heEdge h) * (x (ind (m.heVertex h)) * (y (ind (m.heVertex h)) - y (ind (m.heVertex (m.heNext h)))))

theorem heat_parts (hv : m.Valid) (ht : m.TriFaces) (hm : m.Metric len) {tCoef : ℝ} (h0 : 0 ≤ tCoef) (R : m.Ranges vs hs is es fs) :
    ∃ t M L, m.HeatParts len tCoef (number vs) t M L := by
  obtain ⟨L, ind, l1, i1, sym, row, -, -, kerL⟩ := C65_cotan m len hv ht hm
  obtain ⟨L', w, l1', w1, lr⟩ := cotan_rows (len := len) hv R
  rw [l1] at l1'
  injection l1' with l1'
  subst l1'
  obtain ⟨B, ind', M, G, b1, i1', m1, -, m2, m3, -⟩ := C66_vertex_mass m len hv ht hm
  obtain ⟨A, B', -, b1', b2, -⟩ := C66_dual_areas m len hv ht hm
  rw [b1] at b1'
  injection b1' with b1'
  subst b1'
  rw [R.iv.1] at i1' i1
  injection i1' with i1'
  injection i1 with i1
  subst i1' i1
  have t1 : m.heatTime len tCoef = .ok (tCoef * ((es.map len).sum / m.nE) * ((es.map len).sum / m.nE)) := by
    simp only [heatTime, R.e, bind, Except.bind, foldl_add, zero_add]
  refine ⟨_, M, L, ⟨t1, m1, by simp only [heatOp, t1, m1, l1, bind, Except.bind], ?_, fun hc hn => ?_, fun i hi => ?_, m3, sym, row, fun hD i hi j hj hne => ?_, fun hJ u hu i hi j hj => ?_, w, w1, lr⟩⟩
  · rw [mul_assoc]
    exact mul_nonneg h0 (mul_self_nonneg _)
  · have p : 0 < (es.map len).sum / m.nE := by
      obtain ⟨v, vl, -⟩ := R.iv.2.2.1 0 hn
      have hl := (hv.v_he v vl).1
      have he : heEdge (m.vHalfedge v) ∈ es := by
        rw [R.me, mem_edges hv]
        rcases Nat.mod_two_eq_zero_or_one (m.vHalfedge v) with h | h
        · rwa [show 2 * heEdge (m.vHalfedge v) = m.vHalfedge v by unfold heEdge; omega]
        · have := hv.twin_live _ hl
          have e : m.vHalfedge v = 2 * (m.vHalfedge v / 2) + 1 := by omega
          rw [e, ← twin_two_mul, twin_twin] at this
          exact this
      have cE : m.nE = es.length := by
        rw [← R.ce, ← List.toFinset_card_of_nodup R.ne]
        congr 1
        ext x
        rw [List.mem_toFinset, R.me]
      refine div_pos ?_ (by rw [cE]; exact_mod_cast List.length_pos_of_mem he)
      refine List.sum_pos _ (fun x hx => ?_) (by simpa using List.ne_nil_of_mem he)
      obtain ⟨e, ee, rfl⟩ := List.mem_map.1 hx
      have := len_pos hv hm ((mem_edges hv).1 ((R.me e).1 ee))
      rwa [show heEdge (2 * e) = e by unfold heEdge; omega] at this
    positivity
  · obtain ⟨v, vl, rfl⟩ := R.iv.2.2.1 i hi
    rw [m2 v vl]
    exact (b2 v vl).2.1
  · rw [← pair_single L hi hj, lr]
    refine sum_nonpos (fun h hh => ?_)
    have hl := mem_hes.1 hh
    have wp : 0 ≤ w (heEdge h) := by
      refine hD w w1 _ ?_
      rcases Nat.mod_two_eq_zero_or_one h with e | e
      · rwa [show 2 * heEdge h = h by unfold heEdge; omega]
      · have := hv.twin_live _ hl
        have e : h = 2 * (h / 2) + 1 := by omega
        rw [e, ← twin_two_mul, twin_twin] at this
        exact this
    refine mul_nonpos_of_nonneg_of_nonpos wp ?_
    by_cases c : number vs (m.heVertex h) = i
    · rw [if_pos c, if_neg (fun e => hne (c.symm.trans e))]
      split <;> norm_num
    · rw [if_neg c, zero_mul]
  · have e := (kerL u).1 hu
    obtain ⟨v, vl, rfl⟩ := R.iv.2.2.1 i hi
    obtain ⟨v', wl, rfl⟩ := R.iv.2.2.1 j hj
    induction hJ v v' vl wl with
    | refl => rfl
    | tail _ step ih =>
      obtain ⟨h, hl, rfl, rfl⟩ := step
      have l' := hv.vertex_live _ hl
      exact (ih l' (R.iv.2.1 _ l')).trans (e h hl)

theorem loop_one (ind : ℕ → ℕ) (hv : m.Valid) (ht : m.TriFaces) {sources : List (SPoint × ℝ)} (h : ∀ s ∈ sources, s.1.On m) (i : ℕ) :
    accum (fun p => ind p.1) (fun p => p.2.1) (m.sourceLoop sources) i = (sources.map fun s => m.share ind s.1 i).sum := by
  have := loop_real ind hv ht h (fun _ => 1) i
  simpa only [mul_one] using this

theorem indicator_pos (hv : m.Valid) (R : m.Ranges vs hs is es fs) {α : Type} {sources : List (SPoint × α)} (hne : sources ≠ []) (hp : ∀ s ∈ sources, s.1.On m ∧ s.1.Inside) :
    (∀ i, 0 ≤ (sources.map fun s => m.share (number vs) s.1 i).sum) ∧ ∃ i < m.nV, (sources.map fun s => m.share (number vs) s.1 i).sum ≠ 0 := by
  have nn : ∀ i, ∀ x ∈ sources.map (fun s => m.share (number vs) s.1 i), 0 ≤ x := fun i x hx => by
    obtain ⟨s, hs, rfl⟩ := List.mem_map.1 hx
    exact share_nonneg _ (hp s hs).2 i
  refine ⟨fun i => List.sum_nonneg (nn i), ?_⟩
  obtain ⟨s, hs⟩ := List.exists_mem_of_ne_nil _ hne
  obtain ⟨i, hi, pos⟩ : ∃ i < m.nV, 0 < m.share (number vs) s.1 i := by
    by_contra c
    push Not at c
    have := share_sum hv R (hp s hs).1 (hp s hs).2
    have := sum_nonpos (s := range m.nV) (f := m.share (number vs) s.1) (fun i hi => c i (mem_range.1 hi))
    linarith
  exact ⟨i, hi, (lt_of_lt_of_le pos (List.single_le_sum (nn i) _ (List.mem_map.2 ⟨s, hs, rfl⟩))).ne'⟩

/-- **C93, scalars.** On a connected Delaunay mesh, for all sources at points of the surface, `extendScalar` is defined at every vertex and stays between the least and the largest value. -/
theorem C93_scalar (m : Mesh) (len : ℕ → ℝ) (S : LinSolver ℝ) (tCoef : ℝ) (hS : S.Exact) (hv : m.Valid) (ht : m.TriFaces) (hm : m.Metric len) (h0 : 0 < tCoef) (hJ : m.AllJoined)
    (hD : m.CotanNonneg len) (sources : List (SPoint × ℝ)) (hne : sources ≠ []) (hp : ∀ s ∈ sources, s.1.On m ∧ s.1.Inside) (lo hi : ℝ) (hr : ∀ s ∈ sources, lo ≤ s.2 ∧ s.2 ≤ hi) :
    ∃ out, m.extendScalar len S tCoef sources = .ok out ∧ ∀ v, m.vLive v → ∃ x, out v = some x ∧ lo ≤ x ∧ x ≤ hi := by
  obtain ⟨vs, hs, is, es, fs, R⟩ := hv.ranges
  obtain ⟨t, M, L, P⟩ := heat_parts hv ht hm h0.le R
  obtain ⟨H, _, o1, -, -, o2⟩ := C91_operators m len tCoef hv ht hm h0.le
  rw [P.op] at o1
  injection o1 with o1
  subst o1
  have pd := fun u hu => (o2 u hu).1
  have hon := fun s hs' => (hp s hs').1
  set bd := accum (fun p : ℕ × ℝ × ℝ => number vs p.1) (fun p => p.2.1 * p.2.2) (m.sourceLoop sources) with hbd
  set bi := accum (fun p : ℕ × ℝ × ℝ => number vs p.1) (fun p => p.2.1) (m.sourceLoop sources) with hbi
  have ed : ∀ i, bd i = (sources.map fun s => m.share (number vs) s.1 i * s.2).sum := fun i => loop_real (number vs) hv ht hon (fun x => x) i
  have ei : ∀ i, bi i = (sources.map fun s => m.share (number vs) s.1 i).sum := fun i => loop_one (number vs) hv ht hon i
  have sd := hS m.nV _ bd (exists_solution (definite_kernel pd) bd)
  have si := hS m.nV _ bi (exists_solution (definite_kernel pd) bi)
  refine ⟨_, by simp only [extendScalar, if_neg hne, P.op, R.iv.1, bind, Except.bind, ← hbd, ← hbi]; rfl, fun v vl => ?_⟩
  have lt := R.iv.2.1 v vl
  have hn : 0 < m.nV := by omega
  have q := indicator_pos hv R hne hp
  have ip := heat_pos (P.tpos h0 hn) P.md P.mo P.row P.sym (P.off hD) (P.ker hJ) si (fun i _ => by rw [ei]; exact q.1 i) (by
    obtain ⟨i, hi', h⟩ := q.2
    exact ⟨i, hi', by rw [ei]; exact h⟩) _ lt
  have cmp : ∀ (c : ℝ) (l : List (SPoint × ℝ)), (∀ s ∈ l, s.1.Inside ∧ c ≤ s.2) → ∀ i, c * (l.map fun s => m.share (number vs) s.1 i).sum ≤ (l.map fun s => m.share (number vs) s.1 i * s.2).sum := by
    intro c l
    induction l with
    | nil => intro _ i; simp
    | cons a l ih =>
      intro h i
      simp only [List.map_cons, List.sum_cons, mul_add]
      have := ih (fun s hs => h s (List.mem_cons_of_mem _ hs)) i
      have := mul_le_mul_of_nonneg_left (h a List.mem_cons_self).2 (share_nonneg (m := m) (number vs) (h a List.mem_cons_self).1 i)
      linarith
  have cmp' : ∀ (c : ℝ) (l : List (SPoint × ℝ)), (∀ s ∈ l, s.1.Inside ∧ s.2 ≤ c) → ∀ i, (l.map fun s => m.share (number vs) s.1 i * s.2).sum ≤ c * (l.map fun s => m.share (number vs) s.1 i).sum := by
    intro c l
    induction l with
    | nil => intro _ i; simp
    | cons a l ih =>
      intro h i
      simp only [List.map_cons, List.sum_cons, mul_add]
      have := ih (fun s hs => h s (List.mem_cons_of_mem _ hs)) i
      have := mul_le_mul_of_nonneg_left (h a List.mem_cons_self).2 (share_nonneg (m := m) (number vs) (h a List.mem_cons_self).1 i)
      linarith
  refine ⟨_, if_neg ip.ne', ?_, ?_⟩
  · rw [le_div_iff₀ ip, ← sub_nonneg]
    refine heat_nonneg P.t0 P.md P.mo P.row (P.off hD) (x := fun j => _ - lo * _) (b := fun i => bd i - lo * bi i) (fun i hi' => ?_) (fun i hi' => ?_) _ lt
    · simp only [mul_sub, sum_sub_distrib]
      rw [sd i hi', ← si i hi', mul_sum]
      congr 1
      exact sum_congr rfl (fun j _ => by ring)
    · rw [ed, ei, sub_nonneg]
      exact cmp lo sources (fun s hs' => ⟨(hp s hs').2, (hr s hs').1⟩) i
  · rw [div_le_iff₀ ip, ← sub_nonneg]
    refine heat_nonneg P.t0 P.md P.mo P.row (P.off hD) (x := fun j => hi * _ - _) (b := fun i => hi * bi i - bd i) (fun i hi' => ?_) (fun i hi' => ?_) _ lt
    · simp only [mul_sub, sum_sub_distrib]
      rw [sd i hi', ← si i hi', mul_sum]
      congr 1
      exact sum_congr rfl (fun j _ => by ring)
    · rw [ed, ei, sub_nonneg]
      exact cmp' hi sources (fun s hs' => ⟨(hp s hs').2, (hr s hs').2⟩) i

/-- **C93, the scalar systems.** The result of `extendScalar` is the quotient of two heat flows for the time step of the solver: of the sum over the sources of the value at the point, and of the sum over the sources of one
at the point, both distributed to the vertices by linear interpolation. -/
theorem C93_scalar_system (m : Mesh) (len : ℕ → ℝ) (S : LinSolver ℝ) (tCoef : ℝ) (hS : S.Exact) (hv : m.Valid) (ht : m.TriFaces) (hm : m.Metric len) (h0 : 0 ≤ tCoef)
    (sources : List (SPoint × ℝ)) (hne : sources ≠ []) (hp : ∀ s ∈ sources, s.1.On m) :
    ∃ (out : ℕ → Option ℝ) (H : ℕ → ℕ → ℝ) (ind : ℕ → ℕ) (x y : ℕ → ℝ), m.extendScalar len S tCoef sources = .ok out ∧ m.heatOp len tCoef = .ok H ∧ m.getVertexIndices = .ok ind ∧
      (∀ i < m.nV, ∑ j ∈ range m.nV, H i j * x j = (sources.map fun s => SPoint.interpolate m (fun v => if ind v = i then (1 : ℝ) else 0) s.1 * s.2).sum) ∧
      (∀ i < m.nV, ∑ j ∈ range m.nV, H i j * y j = (sources.map fun s => SPoint.interpolate m (fun v => if ind v = i then (1 : ℝ) else 0) s.1).sum) ∧
      ∀ v, m.vLive v → out v = if y (ind v) = 0 then none else some (x (ind v) / y (ind v)) := by
  obtain ⟨vs, hs, is, es, fs, R⟩ := hv.ranges
  obtain ⟨H, _, o1, -, -, o2⟩ := C91_operators m len tCoef hv ht hm h0
  have ker := definite_kernel (fun u hu => (o2 u hu).1)
  refine ⟨_, H, number vs, _, _, by simp only [extendScalar, if_neg hne, o1, R.iv.1, bind, Except.bind]; rfl, o1, R.iv.1, fun i hi => ?_, fun i hi => ?_, fun v _ => rfl⟩
  · exact (hS m.nV H _ (exists_solution ker _) i hi).trans (loop_real (number vs) hv ht hp (fun x => x) i)
  · exact (hS m.nV H _ (exists_solution ker _) i hi).trans (loop_one (number vs) hv ht hp i)

/-! ## Vectors -/

/-- The rows of the vertex connection Laplacian, as a sum over the halfedges. -/
theorem connection_rows (hv : m.Valid) (ht : m.TriFaces) (hm : m.Metric len) (R : m.Ranges vs hs is es fs) : ∃ C w tr, m.vertexConnectionLaplacian len = .ok C ∧ m.edgeCotanWeights len = .ok w ∧
    m.transportVectorsAlongHalfedge len = .ok tr ∧
    ∀ x y : ℕ → ℂ, ∑ i ∈ range m.nV, ∑ j ∈ range m.nV, x i * C i j * y j =
      ∑ h ∈ m.hes, (w (heEdge h) : ℂ) * (x (number vs (m.heVertex h)) * (y (number vs (m.heVertex h)) - (tr (twin h)).toC * y (number vs (m.heVertex (m.heNext h))))) := by
  obtain ⟨w, w1, w2⟩ := edgeCotanWeights_ok (len := len) hv R
  obtain ⟨sa, vec, tr, th, -, -, t1, -, -, -, t2⟩ := C67_vertices m len hv ht hm
  set ind := number vs with hind
  set T : List (Triplet ℂ) := hs.flatMap (fun he =>
    let iTail := ind (m.heVertex he)
    let iTip := ind (m.heVertex (m.heNext he))
    let weight := w (heEdge he)
    let rot := tr (twin he)
    [(iTail, iTail, (weight : ℂ)), (iTail, iTip, cplx (rot.smul (-weight)))]) with hT
  have bd : ∀ t ∈ T, t.1 < m.nV ∧ t.2.1 < m.nV := by
    intro t ht
    obtain ⟨h, hh, q⟩ := List.mem_flatMap.1 ht
    have l0 := mem_hes.1 ((R.mh h).1 hh)
    have b1 := R.iv.2.1 _ (hv.vertex_live _ l0)
    have b2 := R.iv.2.1 _ (hv.vertex_live _ (hv.next_live _ l0))
    simp only [List.mem_cons, List.not_mem_nil, or_false] at q
    rcases q with rfl | rfl
    · exact ⟨b1, b1⟩
    · exact ⟨b1, b2⟩
  have ok : m.vertexConnectionLaplacian len = .ok (entry T) := by
    simp only [vertexConnectionLaplacian, bind, Except.bind, w1, t1, R.iv.1, R.h]
    exact setFromTriplets_ok bd
  refine ⟨entry T, w, tr, ok, w1, t1, fun x y => ?_⟩
  rw [entry_pair bd, hT, sum_flatMap, sum_of_nodup R.nh R.mh]
  refine sum_congr rfl (fun h hh => ?_)
  simp only [List.map_cons, List.map_nil, List.sum_cons, List.sum_nil]
  have : cplx ((tr (twin h)).smul (-w (heEdge h))) = -(w (heEdge h) : ℂ) * (tr (twin h)).toC := by
    apply Complex.ext <;> simp [cplx, V2.smul, V2.toC] <;> ring
  rw [this]; ring

/-- **C93, the operator.** The vector heat operator is Hermitian. Its form is the integral of the squared length plus the time times the connection energy, so on a Delaunay mesh it is positive definite. -/
theorem C93_operator (m : Mesh) (len : ℕ → ℝ) (tCoef : ℝ) (hv : m.Valid) (ht : m.TriFaces) (hm : m.Metric len) (h0 : 0 ≤ tCoef) :
    ∃ V ind B t w tr, m.vectorHeatOp len tCoef = .ok V ∧ m.getVertexIndices = .ok ind ∧ m.vertexDualAreas len = .ok B ∧ m.heatTime len tCoef = .ok t ∧
      m.edgeCotanWeights len = .ok w ∧ m.transportVectorsAlongHalfedge len = .ok tr ∧
      (∀ i < m.nV, ∀ j < m.nV, V i j = starRingEnd ℂ (V j i)) ∧
      (∀ z : ℕ → ℂ, ∑ i ∈ range m.nV, ∑ j ∈ range m.nV, starRingEnd ℂ (z i) * V i j * z j =
        ((∑ v ∈ m.verts, B v * Complex.normSq (z (ind v)) + t * ∑ e ∈ range m.nEFill with m.heLive (2 * e), w e *
          Complex.normSq (z (ind (m.heVertex (m.heNext (2 * e)))) - (tr (2 * e)).toC * z (ind (m.heVertex (2 * e)))) : ℝ) : ℂ)) ∧
      (m.CotanNonneg len → ∀ z : ℕ → ℂ, (∃ i < m.nV, z i ≠ 0) → 0 < (∑ i ∈ range m.nV, ∑ j ∈ range m.nV, starRingEnd ℂ (z i) * V i j * z j).re) := by
  obtain ⟨vs, hs, is, es, fs, R⟩ := hv.ranges
  obtain ⟨t, M, L, P⟩ := heat_parts hv ht hm h0 R
  obtain ⟨C, ind, w, tr, c1, i1, w1, t1, her, form⟩ := C68_vertex m len hv ht hm
  obtain ⟨B, ind', M', G, b1, i1', m1, -, m2, m3, -⟩ := C66_vertex_mass m len hv ht hm
  obtain ⟨A, B', -, b1', b2, -⟩ := C66_dual_areas m len hv ht hm
  rw [b1] at b1'
  injection b1' with b1'
  subst b1'
  rw [P.mass] at m1
  injection m1 with m1
  subst m1
  rw [R.iv.1] at i1' i1
  injection i1' with i1'
  injection i1 with i1
  subst i1' i1
  have mz : ∀ z : ℕ → ℂ, ∑ i ∈ range m.nV, ∑ j ∈ range m.nV, starRingEnd ℂ (z i) * (M i j : ℂ) * z j = ((∑ v ∈ m.verts, B v * Complex.normSq (z (number vs v)) : ℝ) : ℂ) := by
    intro z
    have : ∀ i ∈ range m.nV, ∑ j ∈ range m.nV, starRingEnd ℂ (z i) * (M i j : ℂ) * z j = ((M i i * Complex.normSq (z i) : ℝ) : ℂ) := by
      intro i hi
      rw [sum_eq_single i (fun j _ h => by rw [m3 i j (Ne.symm h)]; simp) (fun h => absurd hi h)]
      rw [mul_right_comm, ← Complex.normSq_eq_conj_mul_self]
      push_cast
      ring
    rw [sum_congr rfl this, ← Complex.ofReal_sum, sum_index R.iv.2 (fun v => mem_verts (m := m) (v := v)) (fun i => M i i * Complex.normSq (z i))]
    exact congrArg _ (sum_congr rfl (fun v hv' => by rw [m2 v (mem_verts.1 hv')]))
  have full : ∀ z : ℕ → ℂ, ∑ i ∈ range m.nV, ∑ j ∈ range m.nV, starRingEnd ℂ (z i) * ((M i j : ℂ) + t * C i j) * z j =
        ((∑ v ∈ m.verts, B v * Complex.normSq (z (number vs v)) + t * ∑ e ∈ range m.nEFill with m.heLive (2 * e), w e *
          Complex.normSq (z (number vs (m.heVertex (m.heNext (2 * e)))) - (tr (2 * e)).toC * z (number vs (m.heVertex (2 * e)))) : ℝ) : ℂ) := by
    intro z
    rw [Complex.ofReal_add, Complex.ofReal_mul, ← mz, ← form z, mul_sum, ← sum_add_distrib]
    refine sum_congr rfl (fun i _ => ?_)
    rw [mul_sum, ← sum_add_distrib]
    exact sum_congr rfl (fun j _ => by ring)
  refine ⟨fun i j => (M i j : ℂ) + t * C i j, number vs, B, t, w, tr, by simp only [vectorHeatOp, P.time, P.mass, c1, bind, Except.bind], R.iv.1, b1, P.time, w1, t1, fun i hi j hj => ?_, full, fun hD z hz => ?_⟩
  · simp only [map_add, map_mul, Complex.conj_ofReal]
    rw [← her i hi j hj]
    by_cases h : i = j
    · rw [h]
    · rw [m3 i j h, m3 j i (Ne.symm h)]
  · rw [full, Complex.ofReal_re]
    obtain ⟨i, hi, hz⟩ := hz
    obtain ⟨v, vl, rfl⟩ := R.iv.2.2.1 i hi
    have p1 : 0 < ∑ v ∈ m.verts, B v * Complex.normSq (z (number vs v)) :=
      sum_pos' (fun u hu => mul_nonneg (b2 u (mem_verts.1 hu)).2.1.le (Complex.normSq_nonneg _)) ⟨v, mem_verts.2 vl, mul_pos (b2 v vl).2.1 (Complex.normSq_pos.2 hz)⟩
    have p2 : 0 ≤ t * ∑ e ∈ range m.nEFill with m.heLive (2 * e), w e *
          Complex.normSq (z (number vs (m.heVertex (m.heNext (2 * e)))) - (tr (2 * e)).toC * z (number vs (m.heVertex (2 * e)))) :=
      mul_nonneg P.t0 (sum_nonneg (fun e he => mul_nonneg (hD w w1 e (mem_filter.1 he).2) (Complex.normSq_nonneg _)))
    linarith

/-- On a Delaunay mesh the system of the vectors has exactly one solution. -/
theorem vector_kernel {tCoef : ℝ} (hv : m.Valid) (ht : m.TriFaces) (hm : m.Metric len) (h0 : 0 ≤ tCoef) (hD : m.CotanNonneg len) {V : ℕ → ℕ → ℂ} (h : m.vectorHeatOp len tCoef = .ok V) (u : ℕ → ℂ)
    (hu : ∀ i < m.nV, ∑ j ∈ range m.nV, V i j * u j = 0) : ∀ i < m.nV, u i = 0 := by
  obtain ⟨V', _, _, _, _, _, o, -, -, -, -, -, -, -, pd⟩ := C93_operator m len tCoef hv ht hm h0
  rw [h] at o
  injection o with o
  subst o
  by_contra c
  push Not at c
  have := pd hD u c
  rw [sum_eq_zero (fun i hi => ?_)] at this
  · exact lt_irrefl _ this
  · have e := hu i (mem_range.1 hi)
    simp only [mul_assoc, ← mul_sum, e, mul_zero]

theorem vector_unique {tCoef : ℝ} (hv : m.Valid) (ht : m.TriFaces) (hm : m.Metric len) (h0 : 0 ≤ tCoef) (hD : m.CotanNonneg len) {V : ℕ → ℕ → ℂ} (h : m.vectorHeatOp len tCoef = .ok V) {x y b : ℕ → ℂ}
    (hx : ∀ i < m.nV, ∑ j ∈ range m.nV, V i j * x j = b i) (hy : ∀ i < m.nV, ∑ j ∈ range m.nV, V i j * y j = b i) : ∀ i < m.nV, x i = y i := by
  intro i hi
  have := vector_kernel hv ht hm h0 hD h (fun j => x j - y j) (fun i hi => by
    simp only [mul_sub, sum_sub_distrib]
    rw [hx i hi, hy i hi, sub_self]) i hi
  exact sub_eq_zero.1 this

theorem norm_normalize {z : ℂ} (h : z ≠ 0) (a : ℝ) : ‖z / ‖z‖ * a‖ = |a| := by
  rw [norm_mul, norm_div, Complex.norm_real, Complex.norm_real, norm_norm, div_self (norm_ne_zero_iff.2 h), one_mul, Real.norm_eq_abs]

/-- **C93, lengths.** For all sources on a connected Delaunay mesh, every vector of the result has a length between the least and the largest length of the sources. -/
theorem C93_lengths (m : Mesh) (len : ℕ → ℝ) (S : LinSolver ℝ) (SC : LinSolver ℂ) (tCoef : ℝ) (hS : S.Exact) (hv : m.Valid) (ht : m.TriFaces) (hm : m.Metric len) (h0 : 0 < tCoef) (hJ : m.AllJoined)
    (hD : m.CotanNonneg len) (sources : List (SPoint × V2)) (hne : sources ≠ []) (hp : ∀ s ∈ sources, s.1.On m ∧ s.1.Inside) (lo hi : ℝ) (hl : 0 < lo) (hr : ∀ s ∈ sources, lo ≤ s.2.norm ∧ s.2.norm ≤ hi) :
    ∃ out, m.transportTangentVectors len S SC tCoef sources = .ok out ∧ ∀ v, m.vLive v → ∀ x, out v = some x → lo ≤ x.norm ∧ x.norm ≤ hi := by
  obtain ⟨V, ind, B, t, w, tr, v1, i1, -⟩ := C93_operator m len tCoef hv ht hm h0.le
  have nz : ¬ ∃ s ∈ sources, s.2.norm = 0 := fun ⟨s, hs, e⟩ => by have := (hr s hs).1; linarith
  simp only [transportTangentVectors, if_neg hne, v1, i1, bind, Except.bind, if_neg nz]
  set sol := SC m.nV V (accumC (fun p : ℕ × ℝ × V2 => ind p.1) (fun p => (p.2.1 : ℂ) * p.2.2.normalize.toC) (m.sourceLoop sources))
  have many : ∀ l : List (SPoint × V2), l ≠ [] → (∀ s ∈ l, s.1.On m ∧ s.1.Inside) → (∀ s ∈ l, lo ≤ s.2.norm ∧ s.2.norm ≤ hi) →
      ∃ out, (do
        let interpMags ← m.extendScalar len S tCoef (l.map fun s => (s.1, s.2.norm))
        .ok fun v => if sol (ind v) = 0 then none else (interpMags v).map fun x => (V2.ofC (sol (ind v))).normalize.smul x : Res (ℕ → Option V2)) = .ok out ∧
      ∀ v, m.vLive v → ∀ x, out v = some x → lo ≤ x.norm ∧ x.norm ≤ hi := by
    intro l n1 n2 n3
    obtain ⟨mags, e, b⟩ := C93_scalar m len S tCoef hS hv ht hm h0 hJ hD (l.map fun s => (s.1, s.2.norm)) (by simpa using n1) (by
      intro s hs
      obtain ⟨s', h', rfl⟩ := List.mem_map.1 hs
      exact n2 s' h') lo hi (by
      intro s hs
      obtain ⟨s', h', rfl⟩ := List.mem_map.1 hs
      exact n3 s' h')
    refine ⟨_, by simp only [e, bind, Except.bind]; rfl, fun v vl x hx => ?_⟩
    obtain ⟨y, e1, e2, e3⟩ := b v vl
    rw [e1] at hx
    split_ifs at hx with c
    simp only [Option.map_some, Option.some.injEq] at hx
    have : x.norm = y := by
      rw [← hx, ← V2.norm_toC, toC_smul, toC_normalize, ofC_toC, mul_comm, norm_normalize c, abs_of_pos (lt_of_lt_of_le hl e2)]
    rw [this]
    exact ⟨e2, e3⟩
  match sources, hne, hp, hr with
  | [s], _, _, hr =>
    refine ⟨_, rfl, fun v vl x hx => ?_⟩
    split_ifs at hx with c
    simp only [Option.some.injEq] at hx
    have : x.norm = s.2.norm := by
      rw [← hx, ← V2.norm_toC, ofC_toC, norm_normalize c, abs_of_nonneg (by rw [V2.norm]; exact Real.sqrt_nonneg _)]
    rw [this]
    exact hr s List.mem_cons_self
  | a :: b :: l, hne, hp, hr => exact many (a :: b :: l) hne hp hr

theorem extendScalar_ok (hv : m.Valid) (ht : m.TriFaces) (hm : m.Metric len) {tCoef : ℝ} (h0 : 0 ≤ tCoef) (S : LinSolver ℝ) (sources : List (SPoint × ℝ)) : ∃ out, m.extendScalar len S tCoef sources = .ok out := by
  obtain ⟨vs, hs, is, es, fs, R⟩ := hv.ranges
  obtain ⟨t, M, L, P⟩ := heat_parts hv ht hm h0 R
  by_cases h : sources = []
  · exact ⟨_, if_pos h⟩
  · exact ⟨_, by simp only [extendScalar, if_neg h, P.op, R.iv.1, bind, Except.bind]; rfl⟩

/-- **C93, the vector system.** The directions of the result of `transportTangentVectors` are those of the heat flow, with the connection Laplacian, of the unit vectors of the sources, distributed to the vertices by
linear interpolation; the lengths are those that `extendScalar` gives for the lengths of the sources. -/
theorem C93_vector_system (m : Mesh) (len : ℕ → ℝ) (S : LinSolver ℝ) (SC : LinSolver ℂ) (tCoef : ℝ) (hS : S.Exact) (hC : SC.Exact) (hv : m.Valid) (ht : m.TriFaces) (hm : m.Metric len) (h0 : 0 < tCoef)
    (hJ : m.AllJoined) (hD : m.CotanNonneg len) (sources : List (SPoint × V2)) (hne : sources ≠ []) (hp : ∀ s ∈ sources, s.1.On m ∧ s.1.Inside ∧ s.2 ≠ ⟨0, 0⟩) :
    ∃ (out : ℕ → Option V2) (mags : ℕ → Option ℝ) (V : ℕ → ℕ → ℂ) (ind : ℕ → ℕ) (sol : ℕ → ℂ), m.transportTangentVectors len S SC tCoef sources = .ok out ∧ m.extendScalar len S tCoef (sources.map fun s => (s.1, s.2.norm)) = .ok mags ∧
      m.vectorHeatOp len tCoef = .ok V ∧ m.getVertexIndices = .ok ind ∧
      (∀ i < m.nV, ∑ j ∈ range m.nV, V i j * sol j = (sources.map fun s => ((SPoint.interpolate m (fun v => if ind v = i then (1 : ℝ) else 0) s.1 : ℝ) : ℂ) * (s.2.toC / ‖s.2.toC‖)).sum) ∧
      ∀ v, m.vLive v → (sol (ind v) = 0 → out v = none) ∧
        (sol (ind v) ≠ 0 → ∃ a x, mags v = some a ∧ out v = some x ∧ x.toC = a * (sol (ind v) / ‖sol (ind v)‖)) := by
  obtain ⟨V, ind, B, t, w, tr, v1, i1, -⟩ := C93_operator m len tCoef hv ht hm h0.le
  have nn : ∀ u : V2, u ≠ ⟨0, 0⟩ → u.norm ≠ 0 := fun u hu e => by
    rw [← V2.norm_toC, norm_eq_zero] at e
    exact hu (toC_inj (v := ⟨0, 0⟩) (e.trans rfl))
  have nz : ¬ ∃ s ∈ sources, s.2.norm = 0 := fun ⟨s, hs, e⟩ => nn _ (hp s hs).2.2 e
  have range : ∀ l : List (SPoint × V2), ∃ hi, ∀ s ∈ l, s.2.norm ≤ hi := by
    intro l
    induction l with
    | nil => exact ⟨0, fun s hs => by simp at hs⟩
    | cons a l ih =>
      obtain ⟨hi, h⟩ := ih
      refine ⟨max a.2.norm hi, fun s hs => ?_⟩
      rcases List.mem_cons.1 hs with rfl | hs
      · exact le_max_left _ _
      · exact (h s hs).trans (le_max_right _ _)
  obtain ⟨hi, hhi⟩ := range sources
  have mono : ∀ lo hi, (∀ s ∈ sources, lo ≤ s.2.norm ∧ s.2.norm ≤ hi) → ∃ out, m.extendScalar len S tCoef (sources.map fun s => (s.1, s.2.norm)) = .ok out ∧ ∀ v, m.vLive v → ∃ x, out v = some x ∧ lo ≤ x ∧ x ≤ hi :=
    fun lo hi h => C93_scalar m len S tCoef hS hv ht hm h0 hJ hD _ (by simpa using hne) (by
      intro s hs
      obtain ⟨s', h', rfl⟩ := List.mem_map.1 hs
      exact ⟨(hp s' h').1, (hp s' h').2.1⟩) lo hi (by
      intro s hs
      obtain ⟨s', h', rfl⟩ := List.mem_map.1 hs
      exact h s' h')
  obtain ⟨mags, em, bm⟩ := mono 0 hi (fun s hs => ⟨by rw [V2.norm]; exact Real.sqrt_nonneg _, hhi s hs⟩)
  simp only [transportTangentVectors, if_neg hne, v1, i1, bind, Except.bind, if_neg nz]
  set b := accumC (fun p : ℕ × ℝ × V2 => ind p.1) (fun p => (p.2.1 : ℂ) * p.2.2.normalize.toC) (m.sourceLoop sources) with hb
  have q := hC m.nV V b (exists_solution (vector_kernel hv ht hm h0.le hD v1) b)
  set sol := SC m.nV V b
  have eq : ∀ i < m.nV, ∑ j ∈ Finset.range m.nV, V i j * sol j = (sources.map fun s => ((SPoint.interpolate m (fun v => if ind v = i then (1 : ℝ) else 0) s.1 : ℝ) : ℂ) * (s.2.toC / ‖s.2.toC‖)).sum := by
    intro i hi
    rw [q i hi, hb, loop_complex ind hv ht (fun s hs => (hp s hs).1) (fun u : V2 => u.normalize.toC) i]
    refine congrArg _ (List.map_congr_left (fun s _ => ?_))
    rw [toC_normalize]
    rfl
  clear_value sol
  match sources, hne, mono, em, eq with
  | [s], _, mono, em, eq =>
    refine ⟨_, mags, V, ind, sol, rfl, em, rfl, rfl, eq, fun v vl => ⟨fun c => if_pos c, fun c => ?_⟩⟩
    obtain ⟨mags', em', bm'⟩ := mono s.2.norm s.2.norm (by simp)
    rw [em] at em'
    injection em' with em'
    subst em'
    obtain ⟨a, e1, e2, e3⟩ := bm' v vl
    refine ⟨a, _, e1, if_neg c, ?_⟩
    rw [ofC_toC, le_antisymm e3 e2, mul_comm]
  | a :: a' :: l, _, mono, em, eq =>
    refine ⟨fun v => if sol (ind v) = 0 then none else (mags v).map fun x => (V2.ofC (sol (ind v))).normalize.smul x, mags, V, ind, sol, ?_, em, rfl, rfl, eq, fun v vl => ⟨fun c => if_pos c, fun c => ?_⟩⟩
    · simp only [transportEnd, em, bind, Except.bind]
    · obtain ⟨y, e1, -⟩ := bm v vl
      refine ⟨y, _, e1, by simp only [if_neg c, e1, Option.map_some]; rfl, ?_⟩
      rw [toC_smul, toC_normalize, ofC_toC]

/-- **C93, rotations.** On a Delaunay mesh, turning all source vectors by the same angle turns every vector of the result by this angle. -/
theorem C93_rotation (m : Mesh) (len : ℕ → ℝ) (S : LinSolver ℝ) (SC : LinSolver ℂ) (tCoef : ℝ) (hC : SC.Exact) (hv : m.Valid) (ht : m.TriFaces) (hm : m.Metric len) (h0 : 0 ≤ tCoef) (hD : m.CotanNonneg len)
    (sources : List (SPoint × V2)) (hp : ∀ s ∈ sources, s.1.On m) (r : V2) (hr : r.norm = 1) :
    ∃ out out', m.transportTangentVectors len S SC tCoef sources = .ok out ∧ m.transportTangentVectors len S SC tCoef (sources.map fun s => (s.1, r.mul s.2)) = .ok out' ∧
      ∀ v, m.vLive v → out' v = (out v).map r.mul := by
  by_cases hne : sources = []
  · subst hne
    exact ⟨_, _, if_pos rfl, if_pos rfl, fun v _ => rfl⟩
  have hne' : sources.map (fun s => (s.1, r.mul s.2)) ≠ [] := by simpa using hne
  obtain ⟨V, ind, B, t, w, tr, v1, i1, -⟩ := C93_operator m len tCoef hv ht hm h0
  have rC : ‖r.toC‖ = 1 := by rw [V2.norm_toC, hr]
  have nrm : ∀ u : V2, (r.mul u).norm = u.norm := fun u => by rw [← V2.norm_toC, toC_mul, norm_mul, rC, one_mul, V2.norm_toC]
  by_cases hz : ∃ s ∈ sources, s.2.norm = 0
  · have hz' : ∃ s ∈ sources.map (fun s => (s.1, r.mul s.2)), s.2.norm = 0 := by
      obtain ⟨s, hs, e⟩ := hz
      exact ⟨_, List.mem_map.2 ⟨s, hs, rfl⟩, by rw [nrm]; exact e⟩
    exact ⟨fun _ => none, fun _ => none, by simp only [transportTangentVectors, if_neg hne, v1, i1, bind, Except.bind, if_pos hz], by
      simp only [transportTangentVectors, if_neg hne', v1, i1, bind, Except.bind, if_pos hz'], fun v _ => rfl⟩
  · have hz' : ¬ ∃ s ∈ sources.map (fun s => (s.1, r.mul s.2)), s.2.norm = 0 := by
      rintro ⟨s, hs, e⟩
      obtain ⟨s', h', rfl⟩ := List.mem_map.1 hs
      exact hz ⟨s', h', by rw [← nrm]; exact e⟩
    simp only [transportTangentVectors, if_neg hne, if_neg hne', v1, i1, bind, Except.bind, if_neg hz, if_neg hz']
    set b := accumC (fun p : ℕ × ℝ × V2 => ind p.1) (fun p => (p.2.1 : ℂ) * p.2.2.normalize.toC) (m.sourceLoop sources) with hb
    set b' := accumC (fun p : ℕ × ℝ × V2 => ind p.1) (fun p => (p.2.1 : ℂ) * p.2.2.normalize.toC) (m.sourceLoop (sources.map fun s => (s.1, r.mul s.2))) with hb'
    have eb : ∀ i, b' i = r.toC * b i := by
      intro i
      rw [hb, hb', loop_complex ind hv ht hp (fun u : V2 => u.normalize.toC) i, loop_complex ind hv ht (fun s hs => by
        obtain ⟨s', h', rfl⟩ := List.mem_map.1 hs
        exact hp s' h') (fun u : V2 => u.normalize.toC) i, List.map_map, ← List.sum_map_mul_left]
      refine congrArg _ (List.map_congr_left (fun s _ => ?_))
      simp only [Function.comp]
      rw [toC_normalize, toC_normalize, toC_mul, norm_mul, rC, one_mul]
      ring
    have q := hC m.nV V b (exists_solution (vector_kernel hv ht hm h0 hD v1) b)
    have q' := hC m.nV V b' (exists_solution (vector_kernel hv ht hm h0 hD v1) b')
    set sol := SC m.nV V b
    set sol' := SC m.nV V b'
    have es : ∀ i < m.nV, sol' i = r.toC * sol i := vector_unique hv ht hm h0 hD v1 q' (fun i hi => by
      rw [eb, ← q i hi, mul_sum]
      exact sum_congr rfl (fun j _ => by ring))
    have bd : ∀ v, m.vLive v → ind v < m.nV := by
      obtain ⟨vs, hs, is, es, fs, R⟩ := hv.ranges
      rw [R.iv.1] at i1
      injection i1 with i1
      subst i1
      exact R.iv.2.1
    have r0 : r.toC ≠ 0 := by rw [← norm_pos_iff, rC]; norm_num
    have c0 : ∀ v, m.vLive v → (sol' (ind v) = 0 ↔ sol (ind v) = 0) := fun v vl => by
      rw [es _ (bd v vl), mul_eq_zero]
      exact or_iff_right r0
    match sources, hne with
    | [s], _ =>
      refine ⟨_, _, rfl, rfl, fun v vl => ?_⟩
      simp only [c0 v vl]
      split_ifs with c
      · rfl
      · rw [Option.map_some]
        refine congrArg _ (toC_inj ?_)
        rw [toC_mul, ofC_toC, ofC_toC, nrm, es _ (bd v vl), norm_mul, rC, one_mul]
        ring
    | a :: a' :: l, _ =>
      obtain ⟨mags, em⟩ := extendScalar_ok hv ht hm h0 S ((a :: a' :: l).map fun s => (s.1, s.2.norm))
      have em' : m.extendScalar len S tCoef (((a :: a' :: l).map fun s => (s.1, r.mul s.2)).map fun s => (s.1, s.2.norm)) = .ok mags := by
        rw [← em, List.map_map]
        refine congrArg _ (List.map_congr_left (fun s _ => ?_))
        simp only [Function.comp, nrm]
      refine ⟨fun v => if sol (ind v) = 0 then none else (mags v).map fun x => (V2.ofC (sol (ind v))).normalize.smul x,
        fun v => if sol' (ind v) = 0 then none else (mags v).map fun x => (V2.ofC (sol' (ind v))).normalize.smul x, ?_, ?_, fun v vl => ?_⟩
      · simp only [transportEnd, em, bind, Except.bind]
      · simp only [List.map_cons] at em' ⊢
        simp only [transportEnd, List.map_cons, em', bind, Except.bind]
      · simp only [c0 v vl]
        split_ifs with c
        · rfl
        · rw [Option.map_map]
          refine congrArg (fun g => Option.map g (mags v)) (funext (fun x => toC_inj ?_))
          simp only [Function.comp]
          rw [toC_mul, toC_smul, toC_smul, toC_normalize, toC_normalize, ofC_toC, ofC_toC, es _ (bd v vl), norm_mul, rC, one_mul]
          ring

/-- **C93, parallel fields.** On a connected Delaunay mesh on which the field `z` of unit vectors is parallel, multiples of `z` at any vertices are extended to a multiple of `z` at every vertex, whose length
lies between the least and the largest length given. -/
theorem C93_parallel (m : Mesh) (len : ℕ → ℝ) (S : LinSolver ℝ) (SC : LinSolver ℂ) (tCoef : ℝ) (hS : S.Exact) (hC : SC.Exact) (hv : m.Valid) (ht : m.TriFaces) (hm : m.Metric len) (h0 : 0 < tCoef)
    (hJ : m.AllJoined) (hD : m.CotanNonneg len) (tr : ℕ → V2) (htr : m.transportVectorsAlongHalfedge len = .ok tr) (z : ℕ → V2) (hz1 : ∀ v, m.vLive v → (z v).norm = 1)
    (hz : ∀ h, m.heLive h → z (m.heVertex (m.heNext h)) = (tr h).mul (z (m.heVertex h)))
    (sources : List (ℕ × ℝ)) (hne : sources ≠ []) (lo hi : ℝ) (hl : 0 < lo) (hp : ∀ s ∈ sources, m.vLive s.1 ∧ lo ≤ s.2 ∧ s.2 ≤ hi) :
    ∃ out, m.transportTangentVectors len S SC tCoef (sources.map fun s => (.vertex s.1, (z s.1).smul s.2)) = .ok out ∧
      ∀ v, m.vLive v → ∃ x, out v = some ((z v).smul x) ∧ lo ≤ x ∧ x ≤ hi := by
  obtain ⟨vs, hs, is, es, fs, R⟩ := hv.ranges
  obtain ⟨t, M, L, P⟩ := heat_parts hv ht hm h0.le R
  obtain ⟨C, w, tr', c1, w1, t1, cr⟩ := connection_rows hv ht hm R
  rw [htr] at t1
  injection t1 with t1
  subst t1
  obtain ⟨w', w1', lr⟩ := P.lrow
  rw [w1] at w1'
  injection w1' with w1'
  subst w1'
  have v1 : m.vectorHeatOp len tCoef = .ok fun i j => (M i j : ℂ) + t * C i j := by simp only [vectorHeatOp, P.time, P.mass, c1, bind, Except.bind]
  have zC : ∀ v, m.vLive v → ‖(z v).toC‖ = 1 := fun v vl => by rw [V2.norm_toC, hz1 v vl]
  set src : List (SPoint × V2) := sources.map fun s => (.vertex s.1, (z s.1).smul s.2) with hsrc
  have sm : ∀ s ∈ src, s.1.On m ∧ s.1.Inside ∧ lo ≤ s.2.norm ∧ s.2.norm ≤ hi := by
    intro s hs
    obtain ⟨s', h', rfl⟩ := List.mem_map.1 hs
    obtain ⟨q1, q2, q3⟩ := hp s' h'
    have : ((z s'.1).smul s'.2).norm = s'.2 := by rw [← V2.norm_toC, toC_smul, norm_mul, zC _ q1, mul_one, Complex.norm_real, Real.norm_eq_abs, abs_of_pos (by linarith)]
    refine ⟨q1, trivial, ?_⟩
    simp only [this]
    exact ⟨q2, q3⟩
  have hne' : src ≠ [] := by simpa [hsrc] using hne
  have nz : ¬ ∃ s ∈ src, s.2.norm = 0 := fun ⟨s, hs, e⟩ => by have := (sm s hs).2.2.1; linarith
  -- the indicator
  obtain ⟨H, _, o1, -, -, o2⟩ := C91_operators m len tCoef hv ht hm h0.le
  rw [P.op] at o1
  injection o1 with o1
  subst o1
  obtain ⟨x, hx⟩ := exists_solution (definite_kernel (fun u hu => (o2 u hu).1)) (fun i => (src.map fun s => m.share (number vs) s.1 i).sum)
  have q := indicator_pos hv R hne' (fun s hs => ⟨(sm s hs).1, (sm s hs).2.1⟩)
  obtain ⟨s0, -⟩ := List.exists_mem_of_ne_nil _ hne
  have hn : 0 < m.nV := by
    obtain ⟨i, hi', -⟩ := q.2
    omega
  have xp := heat_pos (P.tpos h0 hn) P.md P.mo P.row P.sym (P.off hD) (P.ker hJ) hx (fun i _ => q.1 i) q.2
  have gex : ∀ i, ∃ v, i < m.nV → m.vLive v ∧ number vs v = i := fun i => by
    by_cases h : i < m.nV
    · obtain ⟨v, vl, e⟩ := R.iv.2.2.1 i h
      exact ⟨v, fun _ => ⟨vl, e⟩⟩
    · exact ⟨0, fun h' => absurd h' h⟩
  choose g hg using gex
  have gi : ∀ v, m.vLive v → g (number vs v) = v := fun v vl => by
    have := hg _ (R.iv.2.1 v vl)
    exact R.iv.2.inj this.1 vl this.2
  -- the solution
  set b := accumC (fun p : ℕ × ℝ × V2 => number vs p.1) (fun p => (p.2.1 : ℂ) * p.2.2.normalize.toC) (m.sourceLoop src) with hb
  have eb : ∀ i < m.nV, b i = (z (g i)).toC * ((src.map fun s => m.share (number vs) s.1 i).sum : ℝ) := by
    intro i hi'
    rw [hb, loop_complex (number vs) hv ht (fun s hs => (sm s hs).1) (fun u : V2 => u.normalize.toC) i, hsrc, List.map_map, List.map_map]
    have key : ∀ l : List (ℕ × ℝ), (∀ s ∈ l, m.vLive s.1 ∧ lo ≤ s.2 ∧ s.2 ≤ hi) →
        (l.map fun s => (m.share (number vs) (.vertex s.1) i : ℂ) * ((z s.1).smul s.2).normalize.toC).sum = (z (g i)).toC * ((l.map fun s => m.share (number vs) (.vertex s.1) i).sum : ℝ) := by
      intro l
      induction l with
      | nil => intro _; simp
      | cons a l ih =>
        intro h
        obtain ⟨q1, q2, q3⟩ := h a List.mem_cons_self
        rw [List.map_cons, List.map_cons, List.sum_cons, List.sum_cons, ih (fun s hs => h s (List.mem_cons_of_mem _ hs)), Complex.ofReal_add, mul_add]
        congr 1
        by_cases c : number vs a.1 = i
        · have a0 : (a.2 : ℂ) ≠ 0 := by exact_mod_cast (by linarith : a.2 ≠ 0)
          have e1 : ((z a.1).smul a.2).normalize.toC = (z a.1).toC := by
            rw [toC_normalize, toC_smul, norm_mul, zC _ q1, mul_one, Complex.norm_real, Real.norm_eq_abs, abs_of_pos (by linarith), mul_div_cancel_left₀ _ a0]
          rw [e1, ← c, gi _ q1, mul_comm]
        · have : m.share (number vs) (.vertex a.1) i = 0 := if_neg c
          rw [this]; simp
    exact key sources hp
  have rows : ∀ i < m.nV, ∑ j ∈ range m.nV, ((M i j : ℂ) + t * C i j) * ((z (g j)).toC * x j) = b i := by
    intro i hi'
    have e1 : ∑ j ∈ range m.nV, (M i j : ℂ) * ((z (g j)).toC * x j) = (z (g i)).toC * ((∑ j ∈ range m.nV, M i j * x j : ℝ) : ℂ) := by
      rw [sum_eq_single i (fun j _ h => by rw [P.mo i j (Ne.symm h)]; simp) (fun h => absurd (mem_range.2 hi') h),
        sum_eq_single (a := i) (f := fun j => M i j * x j) (fun j _ h => by rw [P.mo i j (Ne.symm h), zero_mul]) (fun h => absurd (mem_range.2 hi') h)]
      push_cast
      ring
    have e2 : ∑ j ∈ range m.nV, C i j * ((z (g j)).toC * x j) = (z (g i)).toC * ((∑ j ∈ range m.nV, L i j * x j : ℝ) : ℂ) := by
      rw [← pair_unit_row C hi', cr, ← pair_row L hi', lr]
      push_cast
      rw [mul_sum]
      refine sum_congr rfl (fun h hh => ?_)
      have hl' := mem_hes.1 hh
      by_cases c : number vs (m.heVertex h) = i
      · have p1 := hz (twin h) (hv.twin_live h hl')
        rw [hv.vertex_next (hv.twin_live h hl'), twin_twin, ← hv.vertex_next hl'] at p1
        have p2 := congrArg V2.toC p1
        rw [toC_mul] at p2
        rw [if_pos c, if_pos c, gi _ (hv.vertex_live _ hl'), gi _ (hv.vertex_live _ (hv.next_live _ hl')), ← c, gi _ (hv.vertex_live _ hl'), ← mul_assoc (tr (twin h)).toC, ← p2, Complex.ofReal_one]
        ring
      · rw [if_neg c, if_neg c]
        simp
    rw [eb i hi', ← hx i hi']
    simp only [add_mul, sum_add_distrib, mul_assoc, ← mul_sum] at e1 e2 ⊢
    rw [e1, e2]
    push_cast
    ring
  have qs := hC m.nV _ b (exists_solution (vector_kernel hv ht hm h0.le hD v1) b)
  have es' := vector_unique hv ht hm h0.le hD v1 qs rows
  simp only [transportTangentVectors, if_neg hne', v1, R.iv.1, bind, Except.bind, if_neg nz]
  set sol := SC m.nV (fun i j => (M i j : ℂ) + t * C i j) b
  have dir : ∀ v, m.vLive v → sol (number vs v) ≠ 0 ∧ sol (number vs v) / ‖sol (number vs v)‖ = (z v).toC := by
    intro v vl
    have lt := R.iv.2.1 v vl
    have pos := xp _ lt
    have x0 : (x (number vs v) : ℂ) ≠ 0 := by exact_mod_cast pos.ne'
    have z0 : (z v).toC ≠ 0 := by rw [← norm_pos_iff, zC v vl]; norm_num
    rw [es' _ lt, gi v vl]
    refine ⟨mul_ne_zero z0 x0, ?_⟩
    rw [norm_mul, zC v vl, one_mul, Complex.norm_real, Real.norm_eq_abs, abs_of_pos pos, mul_div_cancel_right₀ _ x0]
  match src, sm, hne' with
  | [s], sm, _ =>
    refine ⟨_, rfl, fun v vl => ⟨s.2.norm, ?_, (sm s List.mem_cons_self).2.2⟩⟩
    simp only [if_neg (dir v vl).1]
    refine congrArg _ (toC_inj ?_)
    rw [ofC_toC, toC_smul, (dir v vl).2, mul_comm]
  | a :: a' :: l, sm, hne' =>
    obtain ⟨mags, em, bm⟩ := C93_scalar m len S tCoef hS hv ht hm h0 hJ hD ((a :: a' :: l).map fun s => (s.1, s.2.norm)) (by simp) (by
      intro s hs
      obtain ⟨s', h', rfl⟩ := List.mem_map.1 hs
      exact ⟨(sm s' h').1, (sm s' h').2.1⟩) lo hi (by
      intro s hs
      obtain ⟨s', h', rfl⟩ := List.mem_map.1 hs
      exact (sm s' h').2.2)
    refine ⟨fun v => if sol (number vs v) = 0 then none else (mags v).map fun x => (V2.ofC (sol (number vs v))).normalize.smul x, ?_, fun v vl => ?_⟩
    · simp only [transportEnd, em, bind, Except.bind]
    · obtain ⟨y, e1, e2⟩ := bm v vl
      refine ⟨y, ?_, e2⟩
      simp only [if_neg (dir v vl).1, e1, Option.map_some]
      refine congrArg _ (toC_inj ?_)
      rw [toC_smul, toC_smul, toC_normalize, ofC_toC, (dir v vl).2]

/-! ## Examples -/

/-- With edges of length one all angles are sixty degrees, and the mesh is Delaunay. -/
theorem cotanNonneg_one (hv : m.Valid) : m.CotanNonneg (fun _ => 1) := by
  obtain ⟨vs, hs, is, es, fs, R⟩ := hv.ranges
  obtain ⟨w, w1, w2⟩ := edgeCotanWeights_ok (len := fun _ => (1 : ℝ)) hv R
  intro w' e' e _
  rw [w1] at e'
  injection e' with e'
  subst e'
  rw [w2]
  refine sum_nonneg (fun i _ => ?_)
  unfold halfedgeCotanWeight
  split
  · have : 0 ≤ m.faceArea (fun _ => 1) (m.heFace i) := Real.sqrt_nonneg _
    norm_num
    positivity
  · exact le_rfl

/-- All transports of the single equilateral triangle are the identity. -/
theorem lone_flat : ∃ tr, lone.transportVectorsAlongHalfedge (fun _ => 1) = .ok tr ∧ ∀ h, lone.heLive h → tr h = ⟨1, 0⟩ := by
  have hv := lone_valid
  obtain ⟨vs, hs, is, es, fs, R⟩ := hv.ranges
  obtain ⟨sa, vec, tr, th, a1, -, a3, a4, a5, a6, a7⟩ := C67_vertices lone (fun _ => 1) hv lone_tri (metric_one _)
  obtain ⟨sa', b1, -, b3⟩ := cornerScaledAngles_ok (len := fun _ => (1 : ℝ)) hv (metric_one _) R
  rw [a1] at b1
  injection b1 with b1
  subst b1
  have live : ∀ h < 6, lone.heLive h := by decide +kernel
  have vl : ∀ v < 3, lone.vLive v := by decide +kernel
  have pi : ∀ v < 3, sa (2 * v) = Real.pi := by
    intro v hv'
    have e := b3 v (vl v hv')
    have ob : lone.OnBoundary v := by
      obtain ⟨h, -, q⟩ := (by decide +kernel : ∀ v < 3, ∃ h < 6, lone.heLive h ∧ lone.ext h ∧ lone.heVertex h = v) v hv'
      exact ⟨h, q⟩
    rw [if_pos ob] at e
    have f : ({i ∈ lone.ints | lone.heVertex i = v} : Finset ℕ) = {2 * v} := by
      ext i
      rw [mem_filter, mem_ints, mem_singleton]
      refine ⟨fun q => ?_, fun q => ?_⟩
      · exact (by decide +kernel : ∀ i < 6, ¬ lone.ext i → i = 2 * lone.heVertex i) i q.1.1.1 q.1.2 |>.trans (by rw [q.2])
      · subst q
        exact (by decide +kernel : ∀ v < 3, (lone.heLive (2 * v) ∧ ¬ lone.ext (2 * v)) ∧ lone.heVertex (2 * v) = v) v hv'
    rw [f, sum_singleton] at e
    exact e
  have vh : ∀ v < 3, lone.vHalfedge v = 2 * v := by decide +kernel
  have even : ∀ v < 3, vec (2 * v) = ⟨1, 0⟩ := fun v hv' => by
    have := a5 v (vl v hv')
    rw [vh v hv'] at this
    rw [(a4 _ (live _ (by omega))).1, this]
    simp
  have odd : ∀ v < 3, vec (twin (lone.heNext (lone.heNext (2 * v)))) = ⟨-1, 0⟩ := fun v hv' => by
    have l := live (2 * v) (by omega)
    have e := a6 (2 * v) l ((by decide +kernel : ∀ v < 3, ¬ lone.ext (2 * v)) v hv')
    have e' := e.resolve_right (fun q => (by decide +kernel : ∀ v < 3, twin (lone.heNext (lone.heNext (2 * v))) ≠ lone.vHalfedge (lone.heVertex (2 * v))) v hv' q.1)
    have z := a5 v (vl v hv')
    rw [vh v hv'] at z
    rw [(a4 _ (hv.twin_live _ (hv.next_live _ (hv.next_live _ l)))).1, e', z, pi v hv', zero_add]
    simp
  have all : vec 0 = ⟨1, 0⟩ ∧ vec 2 = ⟨1, 0⟩ ∧ vec 4 = ⟨1, 0⟩ ∧ vec 1 = ⟨-1, 0⟩ ∧ vec 3 = ⟨-1, 0⟩ ∧ vec 5 = ⟨-1, 0⟩ :=
    ⟨even 0 (by omega), even 1 (by omega), even 2 (by omega), odd 1 (by omega), odd 2 (by omega), odd 0 (by omega)⟩
  refine ⟨tr, a3, fun h hl => ?_⟩
  have e := (a7 h hl).1
  have lt : h < 6 := hl.1
  obtain ⟨v0, v2, v4, v1, v3, v5⟩ := all
  have t : twin 0 = 1 ∧ twin 1 = 0 ∧ twin 2 = 3 ∧ twin 3 = 2 ∧ twin 4 = 5 ∧ twin 5 = 4 := by decide
  interval_cases h <;> simp only [t.1, t.2.1, t.2.2.1, t.2.2.2.1, t.2.2.2.2.1, t.2.2.2.2.2, v0, v1, v2, v3, v4, v5, V2.mul, V2.neg, V2.mk.injEq] at e <;>
    · cases hh : tr _ with
      | mk x y =>
        rw [hh] at e
        simp only [V2.mk.injEq]
        constructor <;> linarith [e.1, e.2]

/-- The tetrahedron and the single triangle, with sources at a vertex, on an edge and in a face. -/
example : tetra.Valid ∧ tetra.TriFaces ∧ tetra.Metric (fun _ => 1) ∧ tetra.CotanNonneg (fun _ => 1) ∧ lone.Valid ∧ lone.TriFaces ∧ lone.Metric (fun _ => 1) ∧ lone.AllJoined ∧ lone.CotanNonneg (fun _ => 1) ∧
    (∀ s ∈ [((.vertex 2 : SPoint), (3 : ℝ)), (.edge 1 (1 / 4), -1), (.face 0 ⟨1 / 2, 1 / 2, 0⟩, 7)], (s.1.On lone ∧ s.1.Inside) ∧ -1 ≤ s.2 ∧ s.2 ≤ 7) ∧
    (∀ s ∈ [((.vertex 2 : SPoint), (⟨3, 4⟩ : V2)), (.edge 1 (1 / 4), ⟨0, 1⟩)], (s.1.On lone ∧ s.1.Inside) ∧ 1 ≤ s.2.norm ∧ s.2.norm ≤ 5) ∧
    (⟨3 / 5, 4 / 5⟩ : V2).norm = 1 ∧ (∃ S : LinSolver ℝ, S.Exact) ∧ ∃ S : LinSolver ℂ, S.Exact := by
  have live : ∀ h < 6, lone.heLive h := by decide +kernel
  have n5 : (⟨3, 4⟩ : V2).norm = 5 := by
    simp only [V2.norm]
    rw [show (3 : ℝ) * 3 + 4 * 4 = 5 * 5 by norm_num, Real.sqrt_mul_self (by norm_num)]
  have n1 : (⟨0, 1⟩ : V2).norm = 1 := by simp [V2.norm]
  refine ⟨tetra_valid, tetra_tri, metric_one _, cotanNonneg_one tetra_valid, lone_valid, lone_tri, metric_one _, lone_joined, cotanNonneg_one lone_valid, ?_, ?_, ?_, LinSolver.exists_exact ℝ, LinSolver.exists_exact ℂ⟩
  · simp only [List.mem_cons, List.not_mem_nil, or_false, forall_eq_or_imp, forall_eq]
    refine ⟨⟨⟨(by decide +kernel : lone.vLive 2), trivial⟩, by norm_num⟩, ⟨⟨live 2 (by omega), by simp only [SPoint.Inside]; norm_num⟩, by norm_num⟩, ⟨⟨(by decide +kernel : lone.fLive 0 ∧ 0 < lone.nFFill), by simp only [SPoint.Inside]; norm_num⟩, by norm_num⟩⟩
  · simp only [List.mem_cons, List.not_mem_nil, or_false, forall_eq_or_imp, forall_eq]
    refine ⟨⟨⟨(by decide +kernel : lone.vLive 2), trivial⟩, by rw [n5]; norm_num⟩, ⟨⟨live 2 (by omega), by simp only [SPoint.Inside]; norm_num⟩, by rw [n1]; norm_num⟩⟩
  · simp only [V2.norm]
    rw [show (3 / 5 : ℝ) * (3 / 5) + 4 / 5 * (4 / 5) = 1 by norm_num, Real.sqrt_one]

/-- A parallel field on the single equilateral triangle. -/
example : ∃ tr, lone.transportVectorsAlongHalfedge (fun _ => 1) = .ok tr ∧ ∃ z : ℕ → V2, (∀ v, lone.vLive v → (z v).norm = 1) ∧
    (∀ h, lone.heLive h → z (lone.heVertex (lone.heNext h)) = (tr h).mul (z (lone.heVertex h))) ∧ ∀ s ∈ [(0, (2 : ℝ)), (2, 5)], lone.vLive s.1 ∧ 2 ≤ s.2 ∧ s.2 ≤ 5 := by
  obtain ⟨tr, e, f⟩ := lone_flat
  refine ⟨tr, e, fun _ => ⟨0, 1⟩, fun v _ => by simp [V2.norm], fun h hl => by rw [f h hl]; simp [V2.mul], ?_⟩
  have l : ∀ v < 3, lone.vLive v := by decide +kernel
  simp only [List.mem_cons, List.not_mem_nil, or_false, forall_eq_or_imp, forall_eq]
  exact ⟨⟨l 0 (by omega), by norm_num, by norm_num⟩, l 2 (by omega), by norm_num, by norm_num⟩

end Mesh
end GC
