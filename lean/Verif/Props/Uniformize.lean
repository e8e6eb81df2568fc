import Verif.Uniformize
import Verif.Props.Bff
import Verif.Props.PolygonSigned

/-! # C94: uniformization of disks -/

namespace GC
open Classical Finset

namespace Mesh
variable {m : Mesh} {len : ℕ → ℝ}

/-- The new lengths are the old ones scaled by factors at the vertices that are one at the boundary vertices. -/
def ScaledBy (m : Mesh) (len : ℕ → ℝ) (u : ℕ → ℝ) (len' : ℕ → ℝ) : Prop :=
  (∀ v, m.vLive v → m.OnBoundary v → u v = 0) ∧ ∀ h, m.heLive h → len' (h / 2) = len (h / 2) * Real.exp ((u (m.heVertex h) + u (m.heVertex (m.heNext h))) / 2)

theorem step_scaled (S : LinSolver ℝ) (len : ℕ → ℝ) (hv : m.Valid) {ind : ℕ → ℕ} (hi : m.getVertexIndices = .ok ind) (hc : ∀ v, m.vLive v → ind v = v) :
    ∃ (L : ℕ → ℕ → ℝ) (K : ℕ → ℝ) (iA : List ℕ) (u len' : ℕ → ℝ), m.cotanLaplacian len = .ok L ∧ m.vertexGaussianCurvatures len = .ok K ∧ m.uniformizeStep S len = .ok len' ∧
      iA = (List.range m.nV).filter (fun i => decide (¬ m.vIsBoundary i)) ∧ m.ScaledBy len u len' ∧
      (∀ i, i ∉ iA → u i = 0) ∧
      ∃ b : ℕ → ℝ, (∀ a < iA.length, b a = -K (iA.getD a 0)) ∧ ∀ i ∈ iA, u i = 0.5 * S iA.length (fun a b => L (iA.getD a 0) (iA.getD b 0)) b (iA.idxOf i) := by
  obtain ⟨vs, hs, is, es, fs, R⟩ := hv.ranges
  obtain ⟨L, l1, -⟩ := cotanLaplacian_form (len := len) hv R
  obtain ⟨ca, K, -, k1, -⟩ := C64_curvature m len hv
  rw [R.iv.1] at hi
  injection hi with hi
  subst hi
  set rhs := scatter (number vs) (fun v => if ¬ m.vIsBoundary v then -K v else 0) (fun _ => 0) vs with hr
  set iA := (List.range m.nV).filter (fun i => decide (¬ m.vIsBoundary i)) with hA
  set iB := (List.range m.nV).filter (fun i => !decide (¬ m.vIsBoundary i)) with hB
  set b : ℕ → ℝ := fun a => rhs (iA.getD a 0) - ∑ b ∈ range iB.length, L (iA.getD a 0) (iB.getD b 0) * 0 with hb
  set u : ℕ → ℝ := fun i => if i ∈ iA then 0.5 * S iA.length (fun a b => L (iA.getD a 0) (iA.getD b 0)) b (iA.idxOf i) else 0 with hu
  have live : ∀ i < m.nV, m.vLive i := fun i h => by
    obtain ⟨v, vl, e⟩ := R.iv.2.2.1 i h
    rw [hc v vl] at e
    exact e ▸ vl
  refine ⟨L, K, iA, u, _, l1, k1, by simp only [uniformizeStep, l1, k1, R.iv.1, R.v, R.e, bind, Except.bind]; rfl, rfl, ⟨fun v vl ob => ?_, fun h hl => ?_⟩, fun i h => if_neg h, b, fun a ha => ?_, fun i h => if_pos h⟩
  · refine if_neg (fun c => ?_)
    rw [hA, List.mem_filter] at c
    exact (of_decide_eq_true c.2) ((hv.vIsBoundary_iff vl).2 ob)
  · have he : h / 2 ∈ es := by
      rw [R.me, mem_edges hv]
      rcases Nat.mod_two_eq_zero_or_one h with e | e
      · rwa [show 2 * (h / 2) = h by omega]
      · have := hv.twin_live _ hl
        have e' : h = 2 * (h / 2) + 1 := by omega
        rw [e', ← twin_two_mul, twin_twin] at this
        exact this
    rw [assign_apply, if_pos he]
    have key : ∀ v, m.vLive v → u (number vs v) = u v := fun v vl => by rw [hc v vl]
    have l0 : m.heLive (2 * (h / 2)) := by
      have := (R.me _).1 he
      exact (mem_edges hv).1 this
    show len (h / 2) * Real.exp ((u (number vs (m.heVertex (2 * (h / 2)))) + u (number vs (m.heVertex (twin (2 * (h / 2)))))) / 2) = _
    rw [key _ (hv.vertex_live _ l0), key _ (hv.vertex_live _ (hv.twin_live _ l0))]
    rcases Nat.mod_two_eq_zero_or_one h with e | e
    · rw [show 2 * (h / 2) = h by omega, hv.vertex_next hl]
    · have e' : h = twin (2 * (h / 2)) := by rw [twin_two_mul]; omega
      rw [hv.vertex_next hl, ← e', add_comm]
      congr 6
      rw [e', twin_twin, ← e']
  · simp only [hb, mul_zero, sum_const_zero, sub_zero]
    have mem : iA.getD a 0 ∈ iA := by
      rw [_root_.GC.getD_get _ 0 ha]
      exact List.getElem_mem ha
    have q := mem
    rw [hA, List.mem_filter, List.mem_range] at q
    have vl := live _ q.1
    have e := scatter_apply (key := number vs) (val := fun v => if ¬ m.vIsBoundary v then -K v else 0) (d := fun _ => (0 : ℝ)) (l := vs) (fun x hx y hy e =>
      R.iv.2.inj (mem_verts.1 ((R.mv x).1 hx)) (mem_verts.1 ((R.mv y).1 hy)) e) ((R.mv (iA.getD a 0)).2 (mem_verts.2 vl))
    rw [hc _ vl] at e
    rw [hr, e, if_pos (of_decide_eq_true q.2)]

/-- **C94, conformal.** After any number of passes, whatever the solver returns, the lengths are the input lengths scaled by factors at the vertices that are one at the boundary: the metric is discretely conformal to
the input. -/
theorem C94_conformal (m : Mesh) (S : LinSolver ℝ) (n : ℕ) (hv : m.Valid) (ind : ℕ → ℕ) (hi : m.getVertexIndices = .ok ind) (hc : ∀ v, m.vLive v → ind v = v) (len : ℕ → ℝ) :
    ∃ len' u, m.uniformizeLoop S n len = .ok len' ∧ m.ScaledBy len u len' := by
  induction n generalizing len with
  | zero => exact ⟨len, fun _ => 0, rfl, fun _ _ _ => rfl, fun h _ => by simp⟩
  | succ n ih =>
    obtain ⟨L, K, iA, u, len1, -, -, e, -, ⟨s1, s2⟩, -⟩ := step_scaled S len hv hi hc
    obtain ⟨len', u', e', s1', s2'⟩ := ih len1
    refine ⟨len', fun v => u v + u' v, by simp only [uniformizeLoop, e, bind, Except.bind, e'], fun v vl ob => by simp only [s1 v vl ob, s1' v vl ob, add_zero], fun h hl => ?_⟩
    rw [s2' h hl, s2 h hl, mul_assoc, ← Real.exp_add]
    congr 2
    ring

/-- **C94, lengths.** The result of `uniformizeDisk` keeps the lengths of all edges between boundary vertices, keeps the length cross ratio of the two triangles at every edge, and has positive lengths. -/
theorem C94_lengths (m : Mesh) (S : LinSolver ℝ) (hv : m.Valid) (ht : m.TriFaces) (ind : ℕ → ℕ) (hi : m.getVertexIndices = .ok ind) (hc : ∀ v, m.vLive v → ind v = v) (len : ℕ → ℝ) (hl : ∀ h, m.heLive h → 0 < len (h / 2)) :
    ∃ len', m.uniformizeDisk S len = .ok len' ∧ (∀ h, m.heLive h → 0 < len' (h / 2)) ∧
      (∀ h, m.heLive h → m.OnBoundary (m.heVertex h) → m.OnBoundary (m.heVertex (m.heNext h)) → len' (h / 2) = len (h / 2)) ∧
      ∀ h, m.heLive h → ¬ m.ext h → ¬ m.ext (twin h) →
        len' (m.heNext h / 2) * len' (m.heNext (twin h) / 2) / (len' (m.heNext (m.heNext h) / 2) * len' (m.heNext (m.heNext (twin h)) / 2)) =
        len (m.heNext h / 2) * len (m.heNext (twin h) / 2) / (len (m.heNext (m.heNext h) / 2) * len (m.heNext (m.heNext (twin h)) / 2)) := by
  obtain ⟨len', u, e, s1, s2⟩ := C94_conformal m S 50 hv ind hi hc len
  refine ⟨len', e, fun h h' => ?_, fun h h' b1 b2 => ?_, fun h h' x1 x2 => ?_⟩
  · rw [s2 h h']
    exact mul_pos (hl h h') (Real.exp_pos _)
  · rw [s2 h h', s1 _ (hv.vertex_live _ h') b1, s1 _ (hv.vertex_live _ (hv.next_live _ h')) b2]
    simp
  · have t' := hv.twin_live _ h'
    have n1 := hv.next_live _ h'
    have n2 := hv.next_live _ n1
    have m1 := hv.next_live _ t'
    have m2 := hv.next_live _ m1
    have p1 := hl _ n2
    have p2 := hl _ m2
    have v1 : m.heVertex (m.heNext (twin h)) = m.heVertex h := by rw [hv.vertex_next t', twin_twin]
    have v2 : m.heVertex (m.heNext h) = m.heVertex (twin h) := hv.vertex_next h'
    rw [s2 _ n1, s2 _ n2, s2 _ m1, s2 _ m2, ht h h' x1, ht (twin h) t' x2, v1, v2]
    set a := u (m.heVertex h)
    set b := u (m.heVertex (twin h))
    set c := u (m.heVertex (m.heNext (m.heNext h)))
    set d := u (m.heVertex (m.heNext (m.heNext (twin h))))
    have ex : Real.exp ((b + c) / 2) * Real.exp ((a + d) / 2) = Real.exp ((c + a) / 2) * Real.exp ((d + b) / 2) := by
      rw [← Real.exp_add, ← Real.exp_add]
      congr 1
      ring
    rw [div_eq_div_iff (by positivity) (by positivity)]
    linear_combination (len (m.heNext h / 2) * len (m.heNext (twin h) / 2) * len (m.heNext (m.heNext h) / 2) * len (m.heNext (m.heNext (twin h)) / 2)) * ex

theorem interior_kernel (hv : m.Valid) (ht : m.TriFaces) (hm : m.Metric len) (hJ : m.AllJoined) {ind : ℕ → ℕ} (hi : m.getVertexIndices = .ok ind) (hc : ∀ v, m.vLive v → ind v = v)
    (hb : ∃ v, m.vLive v ∧ m.OnBoundary v) {L : ℕ → ℕ → ℝ} (l1 : m.cotanLaplacian len = .ok L) {iA : List ℕ} (hA : iA = (List.range m.nV).filter (fun i => decide (¬ m.vIsBoundary i))) :
    (∀ z : ℕ → ℝ, (∀ i, i ∉ iA → z i = 0) → ∀ i, ∑ j ∈ range m.nV, L i j * z j = ∑ b ∈ range iA.length, L i (iA.getD b 0) * z (iA.getD b 0)) ∧
    (∀ z : ℕ → ℝ, (∀ i, i ∉ iA → z i = 0) → (∀ i ∈ iA, ∑ j ∈ range m.nV, L i j * z j = 0) → ∀ i < m.nV, z i = 0) := by
  obtain ⟨L', ind', l1', i1, sym, -, -, psd, ker⟩ := C65_cotan m len hv ht hm
  rw [l1] at l1'
  injection l1' with l1'
  subst l1'
  rw [hi] at i1
  injection i1 with i1
  subst i1
  obtain ⟨vs, hs, is, es, fs, R⟩ := hv.ranges
  rw [R.iv.1] at hi
  injection hi with hi
  subst hi
  refine ⟨fun z hz i => ?_, fun z hz h0 => ?_⟩
  · rw [sum_getD iA 0 (fun j => L i j * z j), hA, sum_filter_range]
    refine sum_congr rfl (fun j hj => ?_)
    by_cases h : j ∈ iA
    · have q := h
      rw [hA, List.mem_filter] at q
      rw [if_pos q.2]
    · rw [hz j h, mul_zero]
      split <;> rfl
  · have q0 : ∑ i ∈ range m.nV, z i * ∑ j ∈ range m.nV, L i j * z j = 0 := by
      refine sum_eq_zero (fun i _ => ?_)
      by_cases h : i ∈ iA
      · rw [h0 i h, mul_zero]
      · rw [hz i h, zero_mul]
    have k := (ker z).1 (form_zero sym psd q0)
    obtain ⟨v0, vl0, ob⟩ := hb
    have z0 : z (number vs v0) = 0 := by
      rw [hc v0 vl0]
      refine hz _ (fun c => ?_)
      rw [hA, List.mem_filter] at c
      exact (of_decide_eq_true c.2) ((hv.vIsBoundary_iff vl0).2 ob)
    intro i hi'
    obtain ⟨v, vl, rfl⟩ := R.iv.2.2.1 i hi'
    rw [← z0]
    have walk : ∀ w, Relation.ReflTransGen (fun a b => ∃ h, m.heLive h ∧ m.heVertex h = a ∧ m.heVertex (m.heNext h) = b) v w → z (number vs v) = z (number vs w) := by
      intro w hw
      induction hw with
      | refl => rfl
      | tail _ step ih =>
        obtain ⟨h, hl, rfl, rfl⟩ := step
        exact ih.trans (k h hl)
    exact walk v0 (hJ v v0 vl vl0)

/-- **C94, one pass.** On a connected mesh with boundary and nondegenerate triangles, a pass scales by half the solution of the linearised equation: the scale factors vanish at the boundary and the cotan Laplacian
maps twice them to minus the curvature at every interior vertex. No other scale factors do. -/
theorem C94_step (m : Mesh) (len : ℕ → ℝ) (S : LinSolver ℝ) (hS : S.Exact) (hv : m.Valid) (ht : m.TriFaces) (hm : m.Metric len) (hJ : m.AllJoined) (ind : ℕ → ℕ) (hi : m.getVertexIndices = .ok ind)
    (hc : ∀ v, m.vLive v → ind v = v) (hb : ∃ v, m.vLive v ∧ m.OnBoundary v) :
    ∃ (L : ℕ → ℕ → ℝ) (K u len' : ℕ → ℝ), m.cotanLaplacian len = .ok L ∧ m.vertexGaussianCurvatures len = .ok K ∧ m.uniformizeStep S len = .ok len' ∧ m.ScaledBy len u len' ∧
      (∀ v, m.vLive v → ¬ m.OnBoundary v → ∑ w ∈ range m.nV, L v w * (2 * u w) = -K v) ∧
      ∀ u' : ℕ → ℝ, (∀ v, m.vLive v → m.OnBoundary v → u' v = 0) → (∀ v, m.vLive v → ¬ m.OnBoundary v → ∑ w ∈ range m.nV, L v w * (2 * u' w) = -K v) → ∀ v, m.vLive v → u' v = u v := by
  obtain ⟨L, K, iA, u, len', l1, k1, e, hA, sc, u0, b, hb', hu⟩ := step_scaled S len hv hi hc
  obtain ⟨q1, q2⟩ := interior_kernel hv ht hm hJ hi hc hb l1 hA
  have lt : ∀ v, m.vLive v → v < m.nV := fun v vl => by
    obtain ⟨vs, hs, is, es, fs, R⟩ := hv.ranges
    rw [R.iv.1] at hi
    injection hi with hi
    subst hi
    have := R.iv.2.1 v vl
    rwa [hc v vl] at this
  have live : ∀ i < m.nV, m.vLive i := fun i h => by
    obtain ⟨vs, hs, is, es, fs, R⟩ := hv.ranges
    rw [R.iv.1] at hi
    injection hi with hi
    subst hi
    obtain ⟨v, vl, e⟩ := R.iv.2.2.1 i h
    rw [hc v vl] at e
    exact e ▸ vl
  have mem : ∀ i, i ∈ iA ↔ m.vLive i ∧ ¬ m.OnBoundary i := fun i => by
    rw [hA, List.mem_filter, List.mem_range, decide_eq_true_iff]
    refine ⟨fun h => ⟨live i h.1, fun c => h.2 ((hv.vIsBoundary_iff (live i h.1)).2 c)⟩, fun h => ⟨lt i h.1, fun c => h.2 ((hv.vIsBoundary_iff h.1).1 c)⟩⟩
  have nd : iA.Nodup := by rw [hA]; exact List.nodup_range.filter _
  have gm : ∀ a < iA.length, iA.getD a 0 ∈ iA ∧ iA.idxOf (iA.getD a 0) = a := fun a ha => by
    rw [_root_.GC.getD_get _ 0 ha]
    exact ⟨List.getElem_mem ha, nd.idxOf_getElem a ha⟩
  have ig : ∀ i ∈ iA, iA.idxOf i < iA.length ∧ iA.getD (iA.idxOf i) 0 = i := fun i h => by
    have := List.idxOf_lt_length_iff.2 h
    rw [_root_.GC.getD_get _ 0 this]
    exact ⟨this, List.getElem_idxOf this⟩
  have ker : ∀ y : ℕ → ℝ, (∀ a < iA.length, ∑ c ∈ range iA.length, L (iA.getD a 0) (iA.getD c 0) * y c = 0) → ∀ a < iA.length, y a = 0 := by
    intro y hy a ha
    set z : ℕ → ℝ := fun i => if i ∈ iA then y (iA.idxOf i) else 0 with hz
    have zg : ∀ a < iA.length, z (iA.getD a 0) = y a := fun a ha => by simp only [hz]; rw [if_pos (gm a ha).1, (gm a ha).2]
    rw [← zg a ha]
    refine q2 z (fun i h => if_neg h) (fun i h => ?_) _ (lt _ ((mem _).1 (gm a ha).1).1)
    rw [q1 z (fun i h => if_neg h), ← hy _ (ig i h).1]
    refine sum_congr rfl (fun c hc' => ?_)
    rw [zg c (mem_range.1 hc'), (ig i h).2]
  have sol := hS iA.length _ b (exists_solution ker b)
  have eq : ∀ v, m.vLive v → ¬ m.OnBoundary v → ∑ w ∈ range m.nV, L v w * (2 * u w) = -K v := by
    intro v vl nb
    have hv' := (mem v).2 ⟨vl, nb⟩
    rw [q1 (fun w => 2 * u w) (fun i h => by rw [u0 i h, mul_zero])]
    have := sol _ (ig v hv').1
    rw [hb' _ (ig v hv').1, (ig v hv').2] at this
    rw [← this]
    refine sum_congr rfl (fun c hc' => ?_)
    have g := gm c (mem_range.1 hc')
    rw [hu _ g.1, g.2]
    ring
  refine ⟨L, K, u, len', l1, k1, e, sc, eq, fun u' h1 h2 v vl => ?_⟩
  have := q2 (fun w => if w ∈ iA then u' w - u w else 0) (fun i h => if_neg h) (fun i h => ?_) v (lt v vl)
  · by_cases h : v ∈ iA
    · simp only [if_pos h] at this
      linarith
    · have ob : m.OnBoundary v := by
        by_contra c
        exact h ((mem v).2 ⟨vl, c⟩)
      rw [h1 v vl ob, u0 v h]
  · have a1 := eq i ((mem i).1 h).1 ((mem i).1 h).2
    have a2 := h2 i ((mem i).1 h).1 ((mem i).1 h).2
    have : ∑ j ∈ range m.nV, L i j * (if j ∈ iA then u' j - u j else 0) = (∑ j ∈ range m.nV, L i j * (2 * u' j) - ∑ j ∈ range m.nV, L i j * (2 * u j)) / 2 := by
      rw [← sum_sub_distrib, sum_div]
      refine sum_congr rfl (fun j hj => ?_)
      by_cases c : j ∈ iA
      · rw [if_pos c]; ring
      · have jl := live j (mem_range.1 hj)
        have ob : m.OnBoundary j := by
          by_contra d
          exact c ((mem j).2 ⟨jl, d⟩)
        rw [if_neg c, u0 j c, h1 j jl ob]; ring
    rw [this, a1, a2, sub_self, zero_div]

/-- **C94, flat metrics.** If the curvature is zero at all interior vertices, the lengths of the input are returned. -/
theorem C94_flat (m : Mesh) (len : ℕ → ℝ) (S : LinSolver ℝ) (hS : S.Exact) (hv : m.Valid) (ht : m.TriFaces) (hm : m.Metric len) (hJ : m.AllJoined) (ind : ℕ → ℕ) (hi : m.getVertexIndices = .ok ind)
    (hc : ∀ v, m.vLive v → ind v = v) (hb : ∃ v, m.vLive v ∧ m.OnBoundary v) (K : ℕ → ℝ) (hK : m.vertexGaussianCurvatures len = .ok K) (h0 : ∀ v, m.vLive v → ¬ m.OnBoundary v → K v = 0) :
    m.uniformizeDisk S len = .ok len := by
  have one : m.uniformizeStep S len = .ok len := by
    obtain ⟨L, K', u, len', l1, k1, e, sc, -, uni⟩ := C94_step m len S hS hv ht hm hJ ind hi hc hb
    rw [hK] at k1
    injection k1 with k1
    subst k1
    have z := uni (fun _ => 0) (fun _ _ _ => rfl) (fun v vl nb => by rw [h0 v vl nb]; simp)
    rw [e]
    congr 1
    obtain ⟨vs, hs, is, es, fs, R⟩ := hv.ranges
    funext x
    by_cases hx : x ∈ es
    · have hl := (mem_edges hv).1 ((R.me x).1 hx)
      have := sc.2 _ hl
      rw [← z _ (hv.vertex_live _ hl), ← z _ (hv.vertex_live _ (hv.next_live _ hl)), show 2 * x / 2 = x by omega] at this
      simpa using this
    · simp only [uniformizeStep, bind, Except.bind, l1, hK, R.iv.1, R.v, R.e] at e
      injection e with e
      rw [← e, assign_apply, if_neg hx]
  have : ∀ n, m.uniformizeLoop S n len = .ok len := by
    intro n
    induction n with
    | zero => rfl
    | succ n ih => simp only [uniformizeLoop, one, bind, Except.bind, ih]
  exact this 50

/-! ## Examples -/

theorem wheel_joined : wheel.AllJoined := by
  have s : ∀ h, wheel.heLive h → Relation.ReflTransGen (fun a b => ∃ h, wheel.heLive h ∧ wheel.heVertex h = a ∧ wheel.heVertex (wheel.heNext h) = b)
      (wheel.heVertex h) (wheel.heVertex (wheel.heNext h)) := fun h hl => .single ⟨h, hl, rfl, rfl⟩
  have up : ∀ v, wheel.vLive v → Relation.ReflTransGen (fun a b => ∃ h, wheel.heLive h ∧ wheel.heVertex h = a ∧ wheel.heVertex (wheel.heNext h) = b) v 3 := by
    intro v hv
    have lt : v < 4 := hv.1
    interval_cases v
    · exact s 6 (by decide +kernel)
    · exact s 8 (by decide +kernel)
    · exact s 11 (by decide +kernel)
    · exact .refl
  have down : ∀ v, wheel.vLive v → Relation.ReflTransGen (fun a b => ∃ h, wheel.heLive h ∧ wheel.heVertex h = a ∧ wheel.heVertex (wheel.heNext h) = b) 3 v := by
    intro v hv
    have lt : v < 4 := hv.1
    interval_cases v
    · exact s 7 (by decide +kernel)
    · exact s 9 (by decide +kernel)
    · exact s 10 (by decide +kernel)
    · exact .refl
  exact fun v w hv hw => (up v hv).trans (down w hw)

theorem wheel_tri : wheel.TriFaces :=
  fun i hi hx => (by decide +kernel : ∀ i < 12, ¬ wheel.ext i → wheel.heNext (wheel.heNext (wheel.heNext i)) = i) i hi.1 hx

/-- Lengths of an equilateral triangle cut into three at its centre. -/
noncomputable def wheelFlat (e : ℕ) : ℝ := if e < 3 then Real.sqrt 3 else 1

/-- The triangle with a vertex in the interior: with edges of length one the interior vertex is curved, with the lengths `wheelFlat` it is flat. -/
example : wheel.Valid ∧ wheel.TriFaces ∧ wheel.AllJoined ∧ wheel.Metric (fun _ => 1) ∧ wheel.Metric wheelFlat ∧ (∃ ind, wheel.getVertexIndices = .ok ind ∧ ∀ v, wheel.vLive v → ind v = v) ∧
    (∃ v, wheel.vLive v ∧ wheel.OnBoundary v) ∧ (wheel.vLive 3 ∧ ¬ wheel.OnBoundary 3) ∧ (∃ S : LinSolver ℝ, S.Exact) ∧
    ∃ K, wheel.vertexGaussianCurvatures wheelFlat = .ok K ∧ ∀ v, wheel.vLive v → ¬ wheel.OnBoundary v → K v = 0 := by
  have s3 : Real.sqrt 3 * Real.sqrt 3 = 3 := Real.mul_self_sqrt (by norm_num)
  have s0 : 0 < Real.sqrt 3 := Real.sqrt_pos.2 (by norm_num)
  have s2 : Real.sqrt 3 < 2 := by nlinarith
  have nob : ¬ wheel.OnBoundary 3 := by
    rintro ⟨h, hl, hx, hv⟩
    exact (by decide +kernel : ∀ h < 12, wheel.ext h → wheel.heVertex h ≠ 3) h hl.1 hx hv
  refine ⟨wheel_valid, wheel_tri, wheel_joined, metric_one _, fun h hl hx => ?_, ⟨number [0, 1, 2, 3], rfl, fun v hv => ?_⟩, ⟨0, by decide +kernel, 5, by decide +kernel, by decide +kernel, by decide +kernel⟩,
    ⟨by decide +kernel, nob⟩, LinSolver.exists_exact ℝ, ?_⟩
  · have lt : h < 12 := hl.1
    have key : ∀ h < 12, ¬ wheel.ext h → (h / 2 < 3 ∧ ¬ wheel.heNext h / 2 < 3 ∧ ¬ wheel.heNext (wheel.heNext h) / 2 < 3) ∨ (¬ h / 2 < 3 ∧ wheel.heNext h / 2 < 3 ∧ ¬ wheel.heNext (wheel.heNext h) / 2 < 3) ∨
        (¬ h / 2 < 3 ∧ ¬ wheel.heNext h / 2 < 3 ∧ wheel.heNext (wheel.heNext h) / 2 < 3) := by decide +kernel
    rcases key h lt hx with ⟨a, b, c⟩ | ⟨a, b, c⟩ | ⟨a, b, c⟩ <;> simp only [wheelFlat, heEdge, a, b, c, if_true, if_false] <;>
      exact ⟨by linarith, by linarith, by linarith, by linarith, by linarith, by linarith⟩
  · have lt : v < 4 := hv.1
    interval_cases v <;> decide +kernel
  · obtain ⟨ca, K, c1, k1, k2⟩ := C64_curvature wheel wheelFlat wheel_valid
    obtain ⟨vs, hs, is, es, fs, R⟩ := wheel_valid.ranges
    obtain ⟨ca', c1', c2⟩ := cornerAngles_ok (len := wheelFlat) R
    rw [c1] at c1'
    injection c1' with c1'
    subst c1'
    refine ⟨K, k1, fun v vl nb => ?_⟩
    have v3 : v = 3 := by
      have lt : v < 4 := vl.1
      by_contra c
      have : ∀ v < 4, v ≠ 3 → ∃ h < 12, wheel.heLive h ∧ wheel.ext h ∧ wheel.heVertex h = v := by decide +kernel
      obtain ⟨h, -, q⟩ := this v lt c
      exact nb ⟨h, q⟩
    subst v3
    rw [(k2 3 vl).1, if_neg nb]
    have f : ({h ∈ range wheel.nHeFill | wheel.heLive h ∧ ¬ wheel.ext h ∧ wheel.heVertex h = 3} : Finset ℕ) = {7, 9, 10} := by
      ext i
      simp only [mem_filter, mem_range, mem_insert, mem_singleton]
      refine ⟨fun q => (by decide +kernel : ∀ i < 12, wheel.heVertex i = 3 → i = 7 ∨ i = 9 ∨ i = 10) i q.1 q.2.2.2, ?_⟩
      rintro (rfl | rfl | rfl) <;> decide +kernel
    have ang : ∀ h, h = 7 ∨ h = 9 ∨ h = 10 → ca h = 2 * Real.pi / 3 := by
      intro h hh
      have hi : h ∈ wheel.ints := mem_ints.2 (by rcases hh with rfl | rfl | rfl <;> decide +kernel)
      have e : (heEdge h < 3) = False ∧ (heEdge (wheel.heNext h) < 3) = True ∧ (heEdge (wheel.heNext (wheel.heNext h)) < 3) = False := by
        rcases hh with rfl | rfl | rfl <;> simp only [eq_iff_iff] <;> decide +kernel
      rw [c2 h, if_pos hi]
      simp only [cornerAngle, wheelFlat, e.1, e.2.1, e.2.2, if_true, if_false, s3]
      have : clampR ((1 * 1 + 1 * 1 - 3) / (2 * 1 * 1)) (-1) 1 = -(1 / 2) := by
        unfold clampR
        norm_num
      rw [this, Real.arccos_neg, ← Real.cos_pi_div_three, Real.arccos_cos (by positivity) (by linarith [Real.pi_pos])]
      ring
    rw [f, sum_insert (by decide), sum_insert (by decide), sum_singleton, ang 7 (by simp), ang 9 (by simp), ang 10 (by simp)]
    ring

end Mesh
end GC
