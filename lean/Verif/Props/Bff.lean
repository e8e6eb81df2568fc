import Verif.Bff
import Verif.Props.HeatDistance
import Verif.Props.GaussBonnet
import Verif.Props.Stats

/-! # C92: boundary first flattening -/

namespace GC
open Classical Finset

theorem scatter_apply {β α : Type} {key : β → ℕ} {val : β → α} {d : ℕ → α} {l : List β} (inj : ∀ x ∈ l, ∀ y ∈ l, key x = key y → x = y) {x : β} (hx : x ∈ l) :
    scatter key val d l (key x) = val x := by
  unfold scatter
  have out : ∀ (l : List β) (d : ℕ → α) k, (∀ y ∈ l, key y ≠ k) → l.foldl (fun d x => Function.update d (key x) (val x)) d k = d k := by
    intro l
    induction l with
    | nil => intro d k _; rfl
    | cons a l ih =>
      intro d k h
      rw [List.foldl_cons, ih _ _ (fun y hy => h y (List.mem_cons_of_mem _ hy)), Function.update_of_ne (Ne.symm (h a List.mem_cons_self))]
  induction l generalizing d with
  | nil => exact absurd hx (by simp)
  | cons a l ih =>
    rw [List.foldl_cons]
    by_cases hl : x ∈ l
    · exact ih (fun x hx y hy => inj x (List.mem_cons_of_mem _ hx) y (List.mem_cons_of_mem _ hy)) hl
    · have e : x = a := (List.mem_cons.1 hx).resolve_right hl
      rw [out _ _ _ (fun y hy h => hl (by rw [← inj y (List.mem_cons_of_mem _ hy) x hx h]; exact hy)), e, Function.update_self]

theorem map_number {l : List ℕ} (h : l.Nodup) : l.map (number l) = List.range l.length := by
  refine List.ext_getElem (by simp) (fun i h1 h2 => ?_)
  rw [List.getElem_map, number_get h, List.getElem_range]

theorem number_getD {l : List ℕ} (h : l.Nodup) {v : ℕ} (hv : v ∈ l) : number l v < l.length ∧ l.getD (number l v) 0 = v := by
  obtain ⟨j, hj, rfl⟩ := List.getElem_of_mem hv
  rw [number_get h j hj]
  exact ⟨hj, GC.getD_get l 0 hj⟩

namespace Mesh

/-- What is stored by the constructor. -/
structure BffOk (m : Mesh) (len : ℕ → ℝ) (d : Bff) (ind : ℕ → ℕ) (s : ℕ → ℝ) : Prop where
  nV : d.nV = m.nV
  lap : m.cotanLaplacian len = .ok d.L
  shift : d.Ls = fun i j => d.L i j + 1e-12 * (if i = j then 1 else 0)
  bdy : ∀ v, m.vLive v → m.vIsBoundary v → d.bIdx v < d.iB.length ∧ d.iB.getD (d.bIdx v) 0 = ind v ∧ d.Ob (d.bIdx v) = Real.pi - s v
  int : ∀ v, m.vLive v → ¬ m.vIsBoundary v → d.iIdx v < d.iI.length ∧ d.iI.getD (d.iIdx v) 0 = ind v ∧ d.Oi (d.iIdx v) = 2 * Real.pi - s v
  bsurj : ∀ b < d.iB.length, ∃ v, m.vLive v ∧ m.vIsBoundary v ∧ d.bIdx v = b
  isurj : ∀ a < d.iI.length, ∃ v, m.vLive v ∧ ¬ m.vIsBoundary v ∧ d.iIdx v = a
  split : ∀ f : ℕ → ℝ, ∑ j ∈ range m.nV, f j = ∑ a ∈ range d.iI.length, f (d.iI.getD a 0) + ∑ b ∈ range d.iB.length, f (d.iB.getD b 0)
  glueI : ∀ a < d.iI.length, d.iI.getD a 0 ∈ d.iI ∧ d.iI.idxOf (d.iI.getD a 0) = a
  glueB : ∀ b < d.iB.length, d.iB.getD b 0 ∉ d.iI ∧ d.iB.idxOf (d.iB.getD b 0) = b

theorem bff_ok {m : Mesh} {vs hs is es fs : List ℕ} (len : ℕ → ℝ) (hv : m.Valid) (R : m.Ranges vs hs is es fs) (he : m.eulerCharacteristic = 2) (hb : m.nBL = 1) :
    ∃ d s, m.bff len = .ok d ∧ m.vertexAngleSums len = .ok s ∧ m.BffOk len d (number vs) s := by
  obtain ⟨L, l1, -⟩ := cotanLaplacian_form (len := len) hv R
  obtain ⟨s, s1, -⟩ := vertexAngleSums_ok (len := len) R
  have len' : vs.length = m.nV := by
    rw [← R.cv, ← List.toFinset_card_of_nodup R.nv]
    congr 1
    ext x
    rw [List.mem_toFinset, R.mv]
  have hm : vs.map (number vs) = List.range m.nV := by rw [map_number R.nv, len']
  have live : ∀ v, m.vLive v ↔ v ∈ vs := fun v => by
    rw [R.mv]; unfold verts; rw [mem_filter, mem_range]; exact ⟨fun h => ⟨h.1, h⟩, fun h => h.2⟩
  have ninj : ∀ x ∈ vs, ∀ y ∈ vs, number vs x = number vs y → x = y := fun x hx y hy h => R.iv.2.inj ((live x).2 hx) ((live y).2 hy) h
  set flag := scatter (number vs) (fun v => decide (¬ m.vIsBoundary v)) (fun _ => false) vs with hflag
  have hq : ∀ v ∈ vs, flag (number vs v) = decide (¬ m.vIsBoundary v) := fun v h => scatter_apply ninj h
  set bV := vs.filter fun v => decide (m.vIsBoundary v) with hbV
  set iV := vs.filter fun v => decide (¬ m.vIsBoundary v) with hiV
  have eI : (List.range m.nV).filter flag = iV.map (number vs) := by
    rw [← hm, List.filter_map]
    congr 1
    exact List.filter_congr (fun v h => by rw [Function.comp_apply, hq v h])
  have eB : (List.range m.nV).filter (fun i => !flag i) = bV.map (number vs) := by
    rw [← hm, List.filter_map]
    congr 1
    exact List.filter_congr (fun v h => by simp only [Function.comp_apply, hq v h]; simp)
  have nB : bV.Nodup := R.nv.filter _
  have nI : iV.Nodup := R.nv.filter _
  have getm : ∀ (l : List ℕ) (j : ℕ), j < l.length → (l.map (number vs)).getD j 0 = number vs (l.getD j 0) := by
    intro l j hj
    rw [_root_.GC.getD_get _ _ (by simpa using hj), _root_.GC.getD_get _ _ hj, List.getElem_map]
  have idx : ∀ l : List ℕ, l.Nodup → (∀ x ∈ l, x ∈ vs) → ∀ b < l.length, (l.map (number vs)).idxOf ((l.map (number vs)).getD b 0) = b := by
    intro l nl sub b hb
    rw [_root_.GC.getD_get _ _ (by simpa using hb)]
    refine List.Nodup.idxOf_getElem ?_ _ _
    exact List.Nodup.map_on (fun x hx y hy h => ninj x (sub x hx) y (sub y hy) h) nl
  have self_inj : ∀ l : List ℕ, l.Nodup → ∀ x ∈ l, ∀ y ∈ l, number l x = number l y → x = y := by
    intro l nl x hx y hy h
    rw [← (number_getD nl hx).2, ← (number_getD nl hy).2, h]
  refine ⟨_, s, by
    simp only [bff, R.iv.1, l1, R.v, s1, bind, Except.bind]
    rw [if_neg (not_not.2 ⟨he, hb⟩)], s1, ?_⟩
  refine { nV := rfl, lap := l1, shift := rfl, bdy := ?_, int := ?_, bsurj := ?_, isurj := ?_, split := ?_, glueI := ?_, glueB := ?_ } <;> simp only [← hflag, ← hbV, ← hiV, eI, eB, List.length_map]
  · intro v hl hB
    have mem : v ∈ bV := List.mem_filter.2 ⟨(live v).1 hl, by simpa using hB⟩
    obtain ⟨q1, q2⟩ := number_getD nB mem
    exact ⟨q1, by rw [getm _ _ q1, q2], scatter_apply (self_inj _ nB) mem⟩
  · intro v hl hB
    have mem : v ∈ iV := List.mem_filter.2 ⟨(live v).1 hl, by simpa using hB⟩
    obtain ⟨q1, q2⟩ := number_getD nI mem
    exact ⟨q1, by rw [getm _ _ q1, q2], scatter_apply (self_inj _ nI) mem⟩
  · intro b hb
    have mem := List.mem_filter.1 (List.getElem_mem hb)
    exact ⟨bV[b], (live _).2 mem.1, by simpa using mem.2, number_get nB b hb⟩
  · intro b hb
    have mem := List.mem_filter.1 (List.getElem_mem hb)
    exact ⟨iV[b], (live _).2 mem.1, by simpa using mem.2, number_get nI b hb⟩
  · intro f
    have a := sum_getD (iV.map (number vs)) 0 f
    have b := sum_getD (bV.map (number vs)) 0 f
    rw [List.length_map] at a b
    rw [a, b, ← eI, ← eB, sum_filter_range, sum_filter_range, ← sum_add_distrib]
    refine sum_congr rfl (fun j _ => ?_)
    cases flag j <;> simp
  · intro a ha
    refine ⟨?_, idx _ nI (fun x hx => (List.mem_filter.1 hx).1) a ha⟩
    rw [_root_.GC.getD_get _ _ (by simpa using ha)]
    exact List.getElem_mem _
  · intro b hb
    refine ⟨?_, idx _ nB (fun x hx => (List.mem_filter.1 hx).1) b hb⟩
    rw [getm _ _ hb, _root_.GC.getD_get _ _ hb]
    intro c
    obtain ⟨w, hw, e⟩ := List.mem_map.1 c
    have m1 := List.mem_filter.1 (List.getElem_mem hb)
    have m2 := List.mem_filter.1 hw
    have := ninj _ m2.1 _ m1.1 e
    rw [← this] at m1
    simp at m1 m2
    exact m2.2 m1.2

theorem sum_index {m : Mesh} {vs hs is es fs : List ℕ} (R : m.Ranges vs hs is es fs) (f : ℕ → ℝ) : ∑ j ∈ range m.nV, f j = ∑ v ∈ m.verts, f (number vs v) := by
  have len' : vs.length = m.nV := by
    rw [← R.cv, ← List.toFinset_card_of_nodup R.nv]
    congr 1
    ext x
    rw [List.mem_toFinset, R.mv]
  have e : vs.map (fun v => f (number vs v)) = (vs.map (number vs)).map f := by rw [List.map_map]; rfl
  rw [← sum_of_nodup R.nv R.mv (fun v => f (number vs v)), e, map_number R.nv, len']
  rfl

/-- The curvatures of a disk add up to a full turn. -/
theorem bff_total {m : Mesh} {vs hs is es fs : List ℕ} {len : ℕ → ℝ} (hv : m.Valid) (ht : m.TriFaces) (hm : m.Metric len) (R : m.Ranges vs hs is es fs)
    (he : m.eulerCharacteristic = 2) (hb : m.nBL = 1) {s : ℕ → ℝ} (hs' : m.vertexAngleSums len = .ok s) :
    ∑ v ∈ m.verts, (if m.vIsBoundary v then Real.pi - s v else 2 * Real.pi - s v) = 2 * Real.pi := by
  obtain ⟨s', s1, s2⟩ := vertexAngleSums_ok (len := len) R
  rw [hs'] at s1
  injection s1 with s1
  subst s1
  have e1 : ∀ v, (if m.vIsBoundary v then Real.pi - s v else 2 * Real.pi - s v) = 2 * Real.pi - s v - Real.pi * (if m.vIsBoundary v then 1 else 0) := by
    intro v; split <;> ring
  simp only [e1]
  have eb : ∑ v ∈ m.verts, Real.pi * (if m.vIsBoundary v then (1 : ℝ) else 0) =
      Real.pi * ({v ∈ m.verts | m.vIsBoundary v} : Finset ℕ).card := by rw [← mul_sum, sum_boole]
  rw [sum_sub_distrib, sum_sub_distrib, eb, sum_const, R.cv]
  have tot : ∑ v ∈ m.verts, s v = m.nF * Real.pi := by
    rw [← angle_total hv ht hm, ← sum_verts hv]
    exact sum_congr rfl (fun v _ => by rw [s2, sum_filter])
  rw [tot]
  have := euler_count hv ht
  have chi : (m.nV : ℝ) - m.nE + m.nF = 1 := by
    unfold eulerCharacteristic at he
    rw [hb] at he
    have : ((m.nV : ℤ) : ℝ) - m.nE + (m.nF + 1) = 2 := by exact_mod_cast he
    push_cast at this
    linarith
  rw [nsmul_eq_mul]
  linear_combination Real.pi * this + 2 * Real.pi * chi

/-- The scale factors `u` and the exterior angles `k` on the boundary belong to a flat metric: some scale factors on all vertices, equal to `u` on the boundary, satisfy the discrete
Yamabe equation with the matrix `A`, with curvature zero at the interior vertices and exterior angles `k` at the boundary vertices. -/
def ScaledFlat (m : Mesh) (A : ℕ → ℕ → ℝ) (ind : ℕ → ℕ) (s u k : ℕ → ℝ) : Prop :=
  ∃ z : ℕ → ℝ, (∀ v, m.vLive v → m.vIsBoundary v → z (ind v) = u v ∧ ∑ j ∈ range m.nV, A (ind v) j * z j = k v - (Real.pi - s v)) ∧
    ∀ v, m.vLive v → ¬ m.vIsBoundary v → ∑ j ∈ range m.nV, A (ind v) j * z j = 0 - (2 * Real.pi - s v)

variable {m : Mesh} {len : ℕ → ℝ} {d : Bff} {s : ℕ → ℝ} {ind : ℕ → ℕ}

theorem BffOk.lt (B : m.BffOk len d ind s) : (∀ a < d.iI.length, d.iI.getD a 0 < m.nV) ∧ ∀ b < d.iB.length, d.iB.getD b 0 < m.nV := by
  constructor
  · intro a ha
    by_contra c
    have := B.split (fun j => if j = d.iI.getD a 0 then 1 else 0)
    rw [sum_eq_zero (fun j hj => if_neg (fun e => c (by rw [← e]; exact mem_range.1 hj)))] at this
    have p1 : (1 : ℝ) ≤ ∑ b ∈ range d.iI.length, (if d.iI.getD b 0 = d.iI.getD a 0 then (1 : ℝ) else 0) := by
      refine le_trans (by simp) (single_le_sum (f := fun b => if d.iI.getD b 0 = d.iI.getD a 0 then (1 : ℝ) else 0) (fun b _ => by positivity) (mem_range.2 ha))
    have p2 : (0 : ℝ) ≤ ∑ b ∈ range d.iB.length, (if d.iB.getD b 0 = d.iI.getD a 0 then (1 : ℝ) else 0) := sum_nonneg (fun b _ => by positivity)
    linarith
  · intro a ha
    by_contra c
    have := B.split (fun j => if j = d.iB.getD a 0 then 1 else 0)
    rw [sum_eq_zero (fun j hj => if_neg (fun e => c (by rw [← e]; exact mem_range.1 hj)))] at this
    have p1 : (1 : ℝ) ≤ ∑ b ∈ range d.iB.length, (if d.iB.getD b 0 = d.iB.getD a 0 then (1 : ℝ) else 0) := by
      refine le_trans (by simp) (single_le_sum (f := fun b => if d.iB.getD b 0 = d.iB.getD a 0 then (1 : ℝ) else 0) (fun b _ => by positivity) (mem_range.2 ha))
    have p2 : (0 : ℝ) ≤ ∑ b ∈ range d.iI.length, (if d.iI.getD b 0 = d.iB.getD a 0 then (1 : ℝ) else 0) := sum_nonneg (fun b _ => by positivity)
    linarith

/-- The shifted matrix is symmetric and positive definite, and so is its interior block. -/
theorem BffOk.definite (B : m.BffOk len d ind s) (hv : m.Valid) (ht : m.TriFaces) (hm : m.Metric len) :
    (∀ i < m.nV, ∀ j < m.nV, d.Ls i j = d.Ls j i) ∧ (∀ i < m.nV, ∑ j ∈ range m.nV, d.L i j = 0) ∧
    (∀ u : ℕ → ℝ, (∃ i < m.nV, u i ≠ 0) → 0 < ∑ i ∈ range m.nV, ∑ j ∈ range m.nV, u i * d.Ls i j * u j) ∧
    ∀ u : ℕ → ℝ, (∃ i < d.iI.length, u i ≠ 0) → 0 < ∑ i ∈ range d.iI.length, ∑ j ∈ range d.iI.length, u i * d.Lii i j * u j := by
  obtain ⟨L, ind', l1, -, sym, row, -, psd, -⟩ := C65_cotan m len hv ht hm
  rw [B.lap] at l1
  injection l1 with l1
  subst l1
  have pd : ∀ u : ℕ → ℝ, (∃ i < m.nV, u i ≠ 0) → 0 < ∑ i ∈ range m.nV, ∑ j ∈ range m.nV, u i * d.Ls i j * u j := by
    intro u hu
    have e : ∑ i ∈ range m.nV, ∑ j ∈ range m.nV, u i * d.Ls i j * u j = ∑ i ∈ range m.nV, ∑ j ∈ range m.nV, u i * d.L i j * u j + ∑ i ∈ range m.nV, 1e-12 * u i ^ 2 := by
      rw [← sum_add_distrib]
      refine sum_congr rfl (fun i hi => ?_)
      have : 1e-12 * u i ^ 2 = ∑ j ∈ range m.nV, u i * (1e-12 * (if i = j then 1 else 0)) * u j := by
        rw [sum_eq_single i (fun j _ h => by rw [if_neg (Ne.symm h)]; ring) (fun h => absurd hi h)]
        simp; ring
      rw [this, ← sum_add_distrib, B.shift]
      exact sum_congr rfl (fun j _ => by ring)
    rw [e]
    obtain ⟨i, hi, hne⟩ := hu
    exact add_pos_of_nonneg_of_pos (psd u) (sum_pos' (fun j _ => by positivity) ⟨i, mem_range.2 hi, by positivity⟩)
  refine ⟨fun i hi j hj => by rw [B.shift]; simp only [sym i hi j hj, eq_comm (a := i)], row, pd, fun u hu => ?_⟩
  set z : ℕ → ℝ := fun i => if i ∈ d.iI then u (d.iI.idxOf i) else 0 with hz
  have zI : ∀ a < d.iI.length, z (d.iI.getD a 0) = u a := fun a ha => by
    simp only [hz]; rw [if_pos (B.glueI a ha).1, (B.glueI a ha).2]
  have zB : ∀ b < d.iB.length, z (d.iB.getD b 0) = 0 := fun b hb => if_neg (B.glueB b hb).1
  obtain ⟨i, hi, hne⟩ := hu
  have := pd z ⟨d.iI.getD i 0, B.lt.1 i hi, by rw [zI i hi]; exact hne⟩
  simp only [B.split] at this
  rw [sum_eq_zero (s := range d.iB.length) (fun b hb => by simp only [zB b (mem_range.1 hb), zero_mul, sum_const_zero, add_zero]), add_zero] at this
  refine lt_of_lt_of_eq this (sum_congr rfl (fun a ha => ?_))
  rw [sum_eq_zero (s := range d.iB.length) (fun b hb => by rw [zB b (mem_range.1 hb), mul_zero]), add_zero]
  refine sum_congr rfl (fun c hc => ?_)
  rw [zI a (mem_range.1 ha), zI c (mem_range.1 hc)]
  rfl

/-- **C92, angles from scale factors.** `dirichletToNeumann` returns the exterior angles that belong, in the discrete Yamabe equation with the shifted matrix, to the scale factors `-u`.
They belong to the scale factors `u` that were given, which are then used for the lengths, only if these are zero: the sign of `u` is wrong. -/
theorem C92_neumann (m : Mesh) (len : ℕ → ℝ) (hv : m.Valid) (ht : m.TriFaces) (hm : m.Metric len) (he : m.eulerCharacteristic = 2) (hb : m.nBL = 1) :
    ∃ d s ind, m.bff len = .ok d ∧ m.vertexAngleSums len = .ok s ∧ m.getVertexIndices = .ok ind ∧ ∀ (S : LinSolver ℝ), S.Exact → ∀ u : ℕ → ℝ,
      m.ScaledFlat d.Ls ind s (fun v => -u (d.bIdx v)) (fun v => d.dirichletToNeumann S u (d.bIdx v)) ∧
      (m.ScaledFlat d.Ls ind s (fun v => u (d.bIdx v)) (fun v => d.dirichletToNeumann S u (d.bIdx v)) ↔ ∀ v, m.vLive v → m.vIsBoundary v → u (d.bIdx v) = 0) := by
  obtain ⟨vs, hs, is, es, fs, R⟩ := hv.ranges
  obtain ⟨d, s, d1, s1, B⟩ := bff_ok len hv R he hb
  obtain ⟨sym, -, pd, pdi⟩ := B.definite hv ht hm
  refine ⟨d, s, number vs, d1, s1, R.iv.1, fun S hS u => ?_⟩
  have first : m.ScaledFlat d.Ls (number vs) s (fun v => -u (d.bIdx v)) (fun v => d.dirichletToNeumann S u (d.bIdx v)) := by
    set r : ℕ → ℝ := fun i => d.Oi i - ∑ c ∈ range d.iB.length, d.Lib i c * u c with hr
    have ex := hS d.iI.length d.Lii r (exists_solution (definite_kernel pdi) _)
    set x := S d.iI.length d.Lii r with hx
    refine ⟨fun i => if i ∈ d.iI then -x (d.iI.idxOf i) else -u (d.iB.idxOf i), fun v vl vb => ?_, fun v vl vb => ?_⟩
    · obtain ⟨b1, b2, b3⟩ := B.bdy v vl vb
      simp only
      rw [← b2]
      refine ⟨by rw [if_neg (B.glueB _ b1).1, (B.glueB _ b1).2], ?_⟩
      rw [B.split]
      have e1 : ∑ a ∈ range d.iI.length, d.Ls (d.iB.getD (d.bIdx v) 0) (d.iI.getD a 0) * (if d.iI.getD a 0 ∈ d.iI then -x (d.iI.idxOf (d.iI.getD a 0)) else -u (d.iB.idxOf (d.iI.getD a 0))) =
          -∑ a ∈ range d.iI.length, d.Lib a (d.bIdx v) * x a := by
        rw [← sum_neg_distrib]
        refine sum_congr rfl (fun a ha => ?_)
        have ha := mem_range.1 ha
        rw [if_pos (B.glueI a ha).1, (B.glueI a ha).2, sym _ (B.lt.2 _ b1) _ (B.lt.1 a ha), mul_neg]
        rfl
      have e2 : ∑ c ∈ range d.iB.length, d.Ls (d.iB.getD (d.bIdx v) 0) (d.iB.getD c 0) * (if d.iB.getD c 0 ∈ d.iI then -x (d.iI.idxOf (d.iB.getD c 0)) else -u (d.iB.idxOf (d.iB.getD c 0))) =
          -∑ c ∈ range d.iB.length, d.Lbb (d.bIdx v) c * u c := by
        rw [← sum_neg_distrib]
        refine sum_congr rfl (fun c hc => ?_)
        have hc := mem_range.1 hc
        rw [if_neg (B.glueB c hc).1, (B.glueB c hc).2, mul_neg]
        rfl
      rw [e1, e2]
      unfold Bff.dirichletToNeumann
      rw [← hr, ← hx, b3]
      ring
    · obtain ⟨b1, b2, b3⟩ := B.int v vl vb
      simp only
      rw [← b2, B.split]
      have e1 : ∑ a ∈ range d.iI.length, d.Ls (d.iI.getD (d.iIdx v) 0) (d.iI.getD a 0) * (if d.iI.getD a 0 ∈ d.iI then -x (d.iI.idxOf (d.iI.getD a 0)) else -u (d.iB.idxOf (d.iI.getD a 0))) =
          -r (d.iIdx v) := by
        rw [← ex _ b1, ← sum_neg_distrib]
        refine sum_congr rfl (fun a ha => ?_)
        have ha := mem_range.1 ha
        rw [if_pos (B.glueI a ha).1, (B.glueI a ha).2, mul_neg]
        rfl
      have e2 : ∑ c ∈ range d.iB.length, d.Ls (d.iI.getD (d.iIdx v) 0) (d.iB.getD c 0) * (if d.iB.getD c 0 ∈ d.iI then -x (d.iI.idxOf (d.iB.getD c 0)) else -u (d.iB.idxOf (d.iB.getD c 0))) =
          -∑ c ∈ range d.iB.length, d.Lib (d.iIdx v) c * u c := by
        rw [← sum_neg_distrib]
        refine sum_congr rfl (fun c hc => ?_)
        have hc := mem_range.1 hc
        rw [if_neg (B.glueB c hc).1, (B.glueB c hc).2, mul_neg]
        rfl
      rw [e1, e2, hr]
      simp only [b3]
      ring
  refine ⟨first, ⟨?_, fun h => ?_⟩⟩
  · rintro ⟨z, z1, z2⟩
    obtain ⟨w, w1, w2⟩ := first
    have all : ∀ i < m.nV, z i = w i := by
      refine definite_unique pd (b := fun i => ∑ j ∈ range m.nV, d.Ls i j * w j) (fun i hi => ?_) (fun i hi => rfl)
      obtain ⟨v, vl, rfl⟩ := R.iv.2.2.1 i hi
      by_cases vb : m.vIsBoundary v
      · rw [(z1 v vl vb).2, (w1 v vl vb).2]
      · rw [z2 v vl vb, w2 v vl vb]
    intro v vl vb
    have := all _ (R.iv.2.1 v vl)
    rw [(z1 v vl vb).1, (w1 v vl vb).1] at this
    linarith
  · obtain ⟨w, w1, w2⟩ := first
    exact ⟨w, fun v vl vb => ⟨by rw [(w1 v vl vb).1]; simp only [h v vl vb, neg_zero], (w1 v vl vb).2⟩, w2⟩

/-- **C92, interior.** For all boundary positions, `flattenFromBoth` keeps them, and the positions at the interior vertices are harmonic for the shifted matrix. -/
theorem C92_interior (m : Mesh) (len : ℕ → ℝ) (hv : m.Valid) (ht : m.TriFaces) (hm : m.Metric len) (he : m.eulerCharacteristic = 2) (hb : m.nBL = 1) :
    ∃ d ind, m.bff len = .ok d ∧ m.getVertexIndices = .ok ind ∧ ∀ (S : LinSolver ℝ), S.Exact → ∀ bx w : ℕ → ℝ, (∀ v, m.vLive v → w (ind v) = d.extend m S bx v) →
      (∀ v, m.vLive v → m.vIsBoundary v → w (ind v) = bx (d.bIdx v)) ∧
      ∀ v, m.vLive v → ¬ m.vIsBoundary v → ∑ j ∈ range m.nV, d.Ls (ind v) j * w j = 0 := by
  obtain ⟨vs, hs, is, es, fs, R⟩ := hv.ranges
  obtain ⟨d, s, d1, s1, B⟩ := bff_ok len hv R he hb
  obtain ⟨-, -, -, pdi⟩ := B.definite hv ht hm
  refine ⟨d, number vs, d1, R.iv.1, fun S hS bx w hw => ⟨fun v vl vb => by rw [hw v vl]; exact if_pos vb, fun v vl vb => ?_⟩⟩
  have ex := hS d.iI.length d.Lii (fun i => -∑ c ∈ range d.iB.length, d.Lib i c * bx c) (exists_solution (definite_kernel pdi) _)
  obtain ⟨b1, b2, -⟩ := B.int v vl vb
  rw [← b2, B.split]
  have e1 : ∑ a ∈ range d.iI.length, d.Ls (d.iI.getD (d.iIdx v) 0) (d.iI.getD a 0) * w (d.iI.getD a 0) = -∑ c ∈ range d.iB.length, d.Lib (d.iIdx v) c * bx c := by
    rw [← ex _ b1]
    refine sum_congr rfl (fun a ha => ?_)
    obtain ⟨p, pl, pb, rfl⟩ := B.isurj a (mem_range.1 ha)
    rw [(B.int p pl pb).2.1, hw p pl]
    unfold Bff.extend Bff.Lii
    rw [if_neg pb, (B.int p pl pb).2.1]
  have e2 : ∑ c ∈ range d.iB.length, d.Ls (d.iI.getD (d.iIdx v) 0) (d.iB.getD c 0) * w (d.iB.getD c 0) = ∑ c ∈ range d.iB.length, d.Lib (d.iIdx v) c * bx c := by
    refine sum_congr rfl (fun a ha => ?_)
    obtain ⟨p, pl, pb, rfl⟩ := B.bsurj a (mem_range.1 ha)
    rw [(B.bdy p pl pb).2.1, hw p pl]
    unfold Bff.extend Bff.Lib
    rw [if_pos pb, (B.bdy p pl pb).2.1]
  rw [e1, e2, neg_add_cancel]

/-- A symmetric matrix whose kernel is the constants reaches every vector with sum zero. -/
theorem solve_mean {n : ℕ} (hn : 0 < n) {L : ℕ → ℕ → ℝ} (col : ∀ j < n, ∑ i ∈ range n, L i j = 0) (ker : ∀ u : ℕ → ℝ, (∀ i < n, ∑ j ∈ range n, L i j * u j = 0) → ∀ i < n, ∀ j < n, u i = u j)
    {r : ℕ → ℝ} (hr : ∑ i ∈ range n, r i = 0) : ∃ x : ℕ → ℝ, ∀ i < n, ∑ j ∈ range n, L i j * x j = r i := by
  have hn' : (n : ℝ) ≠ 0 := by exact_mod_cast hn.ne'
  have tot : ∀ (x b : ℕ → ℝ), (∀ i < n, ∑ j ∈ range n, (L i j + 1) * x j = b i) → ∑ i ∈ range n, b i = 0 → ∑ j ∈ range n, x j = 0 := by
    intro x b h hb
    rw [← sum_congr rfl (fun i hi => h i (mem_range.1 hi)), sum_comm] at hb
    rw [sum_congr rfl (fun j hj => by rw [← sum_mul, sum_add_distrib, col j (mem_range.1 hj)])] at hb
    simp only [sum_const, card_range, nsmul_eq_mul, mul_one, zero_add] at hb
    rw [← mul_sum] at hb
    exact (mul_eq_zero.1 hb).resolve_left hn'
  have red : ∀ (x b : ℕ → ℝ), (∀ i < n, ∑ j ∈ range n, (L i j + 1) * x j = b i) → ∑ j ∈ range n, x j = 0 → ∀ i < n, ∑ j ∈ range n, L i j * x j = b i := by
    intro x b h hx i hi
    have := h i hi
    simp only [add_mul, one_mul, sum_add_distrib, hx, add_zero] at this
    exact this
  obtain ⟨x, hx⟩ := exists_solution (n := n) (A := fun i j => L i j + 1) (fun u hu => by
    have t := tot u (fun _ => 0) hu (by simp)
    have c := ker u (red u (fun _ => 0) hu t)
    intro i hi
    rw [sum_congr rfl (fun j hj => c j (mem_range.1 hj) i hi), sum_const, card_range, nsmul_eq_mul] at t
    exact (mul_eq_zero.1 t).resolve_left hn') r
  exact ⟨x, red x r hx (tot x r hx hr)⟩

/-- **C92, scale factors from angles.** On a connected disk, for exterior angles with sum `2π`, `neumannToDirichlet` returns scale factors that belong to them in the discrete Yamabe
equation, with mean zero, if the solver solves systems that have a solution. The matrix is the member `L`, which is singular on every mesh: the shift in the constructor is applied to
a local matrix. -/
theorem C92_dirichlet (m : Mesh) (len : ℕ → ℝ) (hv : m.Valid) (ht : m.TriFaces) (hm : m.Metric len) (he : m.eulerCharacteristic = 2) (hb : m.nBL = 1) (hJ : m.AllJoined) :
    ∃ d s ind, m.bff len = .ok d ∧ m.vertexAngleSums len = .ok s ∧ m.getVertexIndices = .ok ind ∧
      (∀ i < m.nV, ∑ j ∈ range m.nV, d.L i j * 1 = 0) ∧
      ∀ (S : LinSolver ℝ), S.Exact → ∀ k : ℕ → ℝ, ∑ b ∈ range d.iB.length, k b = 2 * Real.pi →
        m.ScaledFlat d.L ind s (fun v => d.neumannToDirichlet S k (d.bIdx v)) (fun v => k (d.bIdx v)) ∧
        (0 < d.iB.length → ∑ b ∈ range d.iB.length, d.neumannToDirichlet S k b = 0) := by
  obtain ⟨vs, hs, is, es, fs, R⟩ := hv.ranges
  obtain ⟨d, s, d1, s1, B⟩ := bff_ok len hv R he hb
  obtain ⟨-, row, -, -⟩ := B.definite hv ht hm
  obtain ⟨L, ind', l1, i1', sym, -, -, psd, kerL⟩ := C65_cotan m len hv ht hm
  rw [B.lap] at l1
  injection l1 with l1
  subst l1
  rw [R.iv.1] at i1'
  injection i1' with i1'
  subst i1'
  refine ⟨d, s, number vs, d1, s1, R.iv.1, fun i hi => by simp only [mul_one]; exact row i hi, fun S hS k hk => ?_⟩
  have ker : ∀ u : ℕ → ℝ, (∀ i < m.nV, ∑ j ∈ range m.nV, d.L i j * u j = 0) → ∀ i < m.nV, ∀ j < m.nV, u i = u j := by
    intro u hu i hi j hj
    have e := (kerL u).1 hu
    obtain ⟨v, vl, rfl⟩ := R.iv.2.2.1 i hi
    obtain ⟨w, wl, rfl⟩ := R.iv.2.2.1 j hj
    induction hJ v w vl wl with
    | refl => rfl
    | tail _ step ih =>
      obtain ⟨h, hl, rfl, rfl⟩ := step
      have l' := hv.vertex_live _ hl
      exact (ih l' (R.iv.2.1 _ l')).trans (e h hl)
  have col : ∀ j < m.nV, ∑ i ∈ range m.nV, d.L i j = 0 := fun j hj => by
    rw [← row j hj]
    exact sum_congr rfl (fun i hi => sym i (mem_range.1 hi) j hj)
  set rhs : ℕ → ℝ := fun i => if i ∈ d.iI then d.Oi (d.iI.idxOf i) else d.Ob (d.iB.idxOf i) - k (d.iB.idxOf i) with hrhs
  have rI : ∀ a < d.iI.length, rhs (d.iI.getD a 0) = d.Oi a := fun a ha => by
    simp only [hrhs]; rw [if_pos (B.glueI a ha).1, (B.glueI a ha).2]
  have rB : ∀ b < d.iB.length, rhs (d.iB.getD b 0) = d.Ob b - k b := fun b hb => by
    simp only [hrhs]; rw [if_neg (B.glueB b hb).1, (B.glueB b hb).2]
  have tot : ∑ i ∈ range m.nV, rhs i = 0 := by
    have full := bff_total hv ht hm R he hb s1
    set O : ℕ → ℝ := fun i => if i ∈ d.iI then d.Oi (d.iI.idxOf i) else d.Ob (d.iB.idxOf i) with hO
    have oI : ∀ a < d.iI.length, O (d.iI.getD a 0) = d.Oi a := fun a ha => by
      simp only [hO]; rw [if_pos (B.glueI a ha).1, (B.glueI a ha).2]
    have oB : ∀ b < d.iB.length, O (d.iB.getD b 0) = d.Ob b := fun b hb => by
      simp only [hO]; rw [if_neg (B.glueB b hb).1, (B.glueB b hb).2]
    have e : ∑ i ∈ range m.nV, O i = 2 * Real.pi := by
      rw [sum_index R, ← full]
      refine sum_congr rfl (fun v h => ?_)
      have vl := mem_verts.1 h
      split
      · next vb => rw [← (B.bdy v vl vb).2.1, oB _ (B.bdy v vl vb).1, (B.bdy v vl vb).2.2]
      · next vb => rw [← (B.int v vl vb).2.1, oI _ (B.int v vl vb).1, (B.int v vl vb).2.2]
    rw [B.split, sum_congr rfl (fun a ha => oI a (mem_range.1 ha)), sum_congr rfl (fun a ha => oB a (mem_range.1 ha))] at e
    rw [B.split, sum_congr rfl (fun a ha => rI a (mem_range.1 ha)), sum_congr rfl (fun a ha => rB a (mem_range.1 ha)), sum_sub_distrib, hk]
    linarith
  have hn : 0 < m.nV := by
    by_contra c
    have z : m.nV = 0 := by omega
    have := bff_total hv ht hm R he hb s1
    rw [Finset.card_eq_zero.1 (R.cv.trans z), sum_empty] at this
    exact absurd this.symm (by positivity)
  have ex := hS m.nV d.L rhs (solve_mean hn col ker tot)
  set x := S m.nV d.L rhs with hx
  set uMean := (∑ b ∈ range d.iB.length, -x (d.iB.getD b 0)) / (d.iB.length : ℝ) with hmean
  have un : ∀ b, d.neumannToDirichlet S k b = -x (d.iB.getD b 0) - uMean := by
    intro b
    unfold Bff.neumannToDirichlet
    rw [B.nV]
  refine ⟨⟨fun i => -x i - uMean, fun v vl vb => ⟨?_, ?_⟩, fun v vl vb => ?_⟩, fun h0 => ?_⟩
  · simp only [un, (B.bdy v vl vb).2.1]
  · have lt := R.iv.2.1 v vl
    obtain ⟨b1, b2, b3⟩ := B.bdy v vl vb
    simp only [mul_sub, mul_neg, sum_sub_distrib, sum_neg_distrib, ← sum_mul, row _ lt, ex _ lt]
    rw [← b2, rB _ b1, b3]
    ring
  · have lt := R.iv.2.1 v vl
    obtain ⟨b1, b2, b3⟩ := B.int v vl vb
    simp only [mul_sub, mul_neg, sum_sub_distrib, sum_neg_distrib, ← sum_mul, row _ lt, ex _ lt]
    rw [← b2, rI _ b1, b3]
    ring
  · have p : (d.iB.length : ℝ) ≠ 0 := by exact_mod_cast h0.ne'
    simp only [un, sum_sub_distrib, sum_const, card_range, nsmul_eq_mul]
    rw [hmean, mul_div_cancel₀ _ p, sub_self]

theorem _root_.GC.BffLoop.rounded_some {n : ℕ} {s : BffLoop} {r : ℕ → ℝ} (h : s.rounded n = some r) :
    ∑ i ∈ range n, s.cs i * r i = 0 ∧ ∑ i ∈ range n, s.sn i * r i = 0 ∧
    ((∀ i < n, 0 < s.nn i) → ∀ l : ℕ → ℝ, ∑ i ∈ range n, s.cs i * l i = 0 → ∑ i ∈ range n, s.sn i * l i = 0 →
      ∑ i ∈ range n, (r i - s.tl i) ^ 2 / s.nn i ≤ ∑ i ∈ range n, (l i - s.tl i) ^ 2 / s.nn i) := by
  unfold BffLoop.rounded at h
  simp only at h
  split at h
  · exact absurd h (by simp)
  next hd =>
  injection h with h
  set a := ∑ i ∈ range n, s.cs i * s.nn i * s.cs i
  set b := ∑ i ∈ range n, s.cs i * s.nn i * s.sn i
  set c := ∑ i ∈ range n, s.sn i * s.nn i * s.sn i
  set px := ∑ i ∈ range n, s.cs i * s.tl i
  set py := ∑ i ∈ range n, s.sn i * s.tl i
  set x := (c * px - b * py) / (a * c - b * b) with hx
  set y := (a * py - b * px) / (a * c - b * b) with hy
  have ri : ∀ i, r i = s.tl i - s.nn i * (s.cs i * x + s.sn i * y) := fun i => by rw [← h]
  have e1 : ∑ i ∈ range n, s.cs i * r i = px - (a * x + b * y) := by
    simp only [px, a, b, sum_mul, ← sum_add_distrib, ← sum_sub_distrib]
    exact sum_congr rfl (fun i _ => by rw [ri]; ring)
  have e2 : ∑ i ∈ range n, s.sn i * r i = py - (b * x + c * y) := by
    simp only [py, c, b, sum_mul, ← sum_add_distrib, ← sum_sub_distrib]
    exact sum_congr rfl (fun i _ => by rw [ri]; ring)
  have dx : x * (a * c - b * b) = c * px - b * py := div_mul_cancel₀ _ hd
  have dy : y * (a * c - b * b) = a * py - b * px := div_mul_cancel₀ _ hd
  have z1 : ∑ i ∈ range n, s.cs i * r i = 0 := by
    rw [e1]
    refine (mul_eq_zero.1 (?_ : (px - (a * x + b * y)) * (a * c - b * b) = 0)).resolve_right hd
    linear_combination -a * dx - b * dy
  have z2 : ∑ i ∈ range n, s.sn i * r i = 0 := by
    rw [e2]
    refine (mul_eq_zero.1 (?_ : (py - (b * x + c * y)) * (a * c - b * b) = 0)).resolve_right hd
    linear_combination -b * dx - c * dy
  refine ⟨z1, z2, fun hw l l1 l2 => ?_⟩
  have key : ∑ i ∈ range n, (l i - s.tl i) ^ 2 / s.nn i = ∑ i ∈ range n, (r i - s.tl i) ^ 2 / s.nn i + ∑ i ∈ range n, (l i - r i) ^ 2 / s.nn i -
      2 * (x * (∑ i ∈ range n, s.cs i * l i - ∑ i ∈ range n, s.cs i * r i) + y * (∑ i ∈ range n, s.sn i * l i - ∑ i ∈ range n, s.sn i * r i)) := by
    simp only [← sum_sub_distrib, mul_sum, ← sum_add_distrib]
    refine sum_congr rfl (fun i hi => ?_)
    have p := (hw i (mem_range.1 hi)).ne'
    have q : s.tl i = r i + s.nn i * (s.cs i * x + s.sn i * y) := by rw [ri]; ring
    rw [q]
    field_simp
    ring
  rw [key, z1, z2, l1, l2]
  have : 0 ≤ ∑ i ∈ range n, (l i - r i) ^ 2 / s.nn i := sum_nonneg (fun i hi => div_nonneg (sq_nonneg _) (hw i (mem_range.1 hi)).le)
  linarith

theorem _root_.GC.BffLoop.rounded_ne {n : ℕ} {s : BffLoop} (hw : ∀ i < n, 0 < s.nn i) {i j : ℕ} (hi : i < n) (hj : j < n) (hd : s.cs i * s.sn j - s.sn i * s.cs j ≠ 0) :
    s.rounded n ≠ none := by
  have key : (∑ i ∈ range n, s.cs i * s.nn i * s.cs i) * (∑ i ∈ range n, s.sn i * s.nn i * s.sn i) - (∑ i ∈ range n, s.cs i * s.nn i * s.sn i) * (∑ i ∈ range n, s.cs i * s.nn i * s.sn i) =
      (∑ i ∈ range n, ∑ j ∈ range n, s.nn i * s.nn j * (s.cs i * s.sn j - s.sn i * s.cs j) ^ 2) / 2 := by
    have e : ∑ i ∈ range n, ∑ j ∈ range n, s.nn i * s.nn j * (s.cs i * s.sn j - s.sn i * s.cs j) ^ 2 =
        ∑ i ∈ range n, ∑ j ∈ range n, (s.cs i * s.nn i * s.cs i) * (s.sn j * s.nn j * s.sn j) + ∑ i ∈ range n, ∑ j ∈ range n, (s.sn i * s.nn i * s.sn i) * (s.cs j * s.nn j * s.cs j) -
          2 * ∑ i ∈ range n, ∑ j ∈ range n, (s.cs i * s.nn i * s.sn i) * (s.cs j * s.nn j * s.sn j) := by
      simp only [mul_sum, ← sum_add_distrib, ← sum_sub_distrib]
      exact sum_congr rfl (fun i _ => sum_congr rfl (fun j _ => by ring))
    rw [e, ← sum_mul_sum, ← sum_mul_sum, ← sum_mul_sum]
    ring
  unfold BffLoop.rounded
  simp only
  rw [key]
  have t0 : ∀ a ∈ range n, ∀ b ∈ range n, 0 ≤ s.nn a * s.nn b * (s.cs a * s.sn b - s.sn a * s.cs b) ^ 2 := fun a ha b hb =>
    mul_nonneg (mul_nonneg (hw a (mem_range.1 ha)).le (hw b (mem_range.1 hb)).le) (sq_nonneg _)
  have p : 0 < ∑ i ∈ range n, ∑ j ∈ range n, s.nn i * s.nn j * (s.cs i * s.sn j - s.sn i * s.cs j) ^ 2 := by
    refine sum_pos' (fun a ha => sum_nonneg (t0 a ha)) ⟨i, mem_range.2 hi, sum_pos' (t0 i (mem_range.2 hi)) ⟨j, mem_range.2 hj, ?_⟩⟩
    have := hw i hi; have := hw j hj
    positivity
  rw [if_neg (by linarith)]
  simp

/-- The state after the first `n` halfedges of the loop. -/
theorem bff_steps {m : Mesh} {len : ℕ → ℝ} {bIdx f : ℕ → ℕ} {u k : ℕ → ℝ} {N : ℕ} (inj : ∀ i < N, ∀ j < N, bIdx (m.heVertex (f i)) = bIdx (m.heVertex (f j)) → i = j) (n : ℕ) (hn : n ≤ N) :
    ∃ s, ((List.range n).map f).foldl (BffLoop.step m len bIdx u k) ⟨0, fun _ => 0, fun _ => 0, fun _ => 0, fun _ => 0⟩ = s ∧
      s.phi = ∑ i ∈ range n, k (bIdx (m.heVertex (twin (f i)))) ∧
      (∀ j < n, s.tl (bIdx (m.heVertex (f j))) = len (heEdge (f j)) * Real.exp (0.5 * (u (bIdx (m.heVertex (f j))) + u (bIdx (m.heVertex (twin (f j)))))) ∧
        s.cs (bIdx (m.heVertex (f j))) = Real.cos (∑ i ∈ range j, k (bIdx (m.heVertex (twin (f i))))) ∧
        s.sn (bIdx (m.heVertex (f j))) = Real.sin (∑ i ∈ range j, k (bIdx (m.heVertex (twin (f i))))) ∧ s.nn (bIdx (m.heVertex (f j))) = len (heEdge (f j))) ∧
      ∀ b, (∀ j < n, bIdx (m.heVertex (f j)) ≠ b) → s.nn b = 0 := by
  refine ⟨_, rfl, ?_⟩
  induction n with
  | zero => exact ⟨by simp, by simp, by simp⟩
  | succ n ih =>
    obtain ⟨i1, i2, i3⟩ := ih (by omega)
    rw [List.range_succ, List.map_append, List.foldl_append]
    set s := ((List.range n).map f).foldl (BffLoop.step m len bIdx u k) ⟨0, fun _ => 0, fun _ => 0, fun _ => 0, fun _ => 0⟩ with hs
    simp only [List.map_cons, List.map_nil, List.foldl_cons, List.foldl_nil]
    refine ⟨?_, fun j hj => ?_, fun b hb => ?_⟩
    · rw [sum_range_succ, ← i1]; rfl
    · unfold BffLoop.step
      simp only
      rcases Nat.lt_succ_iff_lt_or_eq.1 hj with h | rfl
      · have ne : bIdx (m.heVertex (f j)) ≠ bIdx (m.heVertex (f n)) := fun e => by
          have := inj j (by omega) n (by omega) e
          omega
        simp only [Function.update_of_ne ne]
        exact i2 j h
      · simp only [Function.update_self, i1]
        refine ⟨trivial, trivial, trivial, ?_⟩
        rw [i3 _ (fun i hi e => by have := inj i (by omega) j (by omega) e; omega), zero_add]
    · unfold BffLoop.step
      simp only
      rw [Function.update_of_ne (hb n (by omega)).symm]
      exact i3 b (fun j hj => hb j (by omega))

theorem bff_places {m : Mesh} {bIdx f : ℕ → ℕ} {s : BffLoop} {r : ℕ → ℝ} {N : ℕ} (inj : ∀ i < N, ∀ j < N, bIdx (m.heVertex (f i)) = bIdx (m.heVertex (f j)) → i = j) (n : ℕ) (hn : n ≤ N) :
    ∃ t, ((List.range n).map f).foldl (BffLoop.place m bIdx s r) ((0, 0), fun _ => ⟨0, 0⟩) = t ∧
      t.1 = (∑ i ∈ range n, r (bIdx (m.heVertex (f i))) * s.cs (bIdx (m.heVertex (f i))), ∑ i ∈ range n, r (bIdx (m.heVertex (f i))) * s.sn (bIdx (m.heVertex (f i)))) ∧
      ∀ j < n, t.2 (bIdx (m.heVertex (f j))) =
        ⟨-∑ i ∈ range j, r (bIdx (m.heVertex (f i))) * s.cs (bIdx (m.heVertex (f i))), ∑ i ∈ range j, r (bIdx (m.heVertex (f i))) * s.sn (bIdx (m.heVertex (f i)))⟩ := by
  refine ⟨_, rfl, ?_⟩
  induction n with
  | zero => exact ⟨by simp, by simp⟩
  | succ n ih =>
    obtain ⟨i1, i2⟩ := ih (by omega)
    rw [List.range_succ, List.map_append, List.foldl_append]
    set t := ((List.range n).map f).foldl (BffLoop.place m bIdx s r) ((0, 0), fun _ => ⟨0, 0⟩) with ht
    simp only [List.map_cons, List.map_nil, List.foldl_cons, List.foldl_nil]
    refine ⟨?_, fun j hj => ?_⟩
    · rw [sum_range_succ, sum_range_succ]
      unfold BffLoop.place
      simp only [i1]
    · unfold BffLoop.place
      simp only
      rcases Nat.lt_succ_iff_lt_or_eq.1 hj with h | rfl
      · rw [Function.update_of_ne (fun e => by have := inj j (by omega) n (by omega) e; omega)]
        exact i2 j h
      · rw [Function.update_self, i1]

/-- The halfedges of the boundary loops of a mesh with one boundary loop. -/
theorem bffHalfedges_ok {m : Mesh} (hv : m.Valid) (hb : m.nBL = 1) :
    ∃ l, m.bffHalfedges = .ok l ∧ l.Nodup ∧ (∀ h, h ∈ l ↔ m.heLive h ∧ m.ext h) ∧ ∀ j h, l[j]? = some h → l[(j+1) % l.length]? = some (m.heNext h) := by
  obtain ⟨-, -, -, -, -, -, bs, b1, b2, b3⟩ := C16_ranges m hv
  have c := hv.cnt_bl
  have fc := hv.f_cap
  rw [hb] at b3
  obtain ⟨b, rfl⟩ := List.length_eq_one_iff.1 b3
  obtain ⟨x1, x2, x3⟩ := (b2.2 b).1 (by simp)
  obtain ⟨l, l1, l2, l3, -, l5, -⟩ := C49_face_halfedges m hv _ x2
  have fb : m.nFCap - 1 - b = m.nFCap - 1 := by
    rcases x2.1 with h | h <;> omega
  refine ⟨l, ?_, l2, fun h => ?_, l5⟩
  · unfold bffHalfedges
    simp only [bind, Except.bind, b1, List.mapM_cons, List.mapM_nil, l1, pure, Except.pure]
    simp
  · rw [l3]
    refine and_congr_right (fun hl => ?_)
    have := hv.face_live h hl
    unfold ext
    rcases this.1 with h' | h' <;> constructor <;> intro h2 <;> omega

/-- **C92, boundary.** For all scale factors `u` and exterior angles `k`, `computeBoundaryPositions` returns a closed polygon along the boundary: each edge of the boundary loop, the last
one included, has the direction that the exterior angles prescribe (in mirror image), and among all lengths for which the polygon closes, its lengths have the least weighted
distance to the scaled lengths. If two directions are not parallel, the result is defined. -/
theorem C92_boundary (m : Mesh) (len : ℕ → ℝ) (hv : m.Valid) (hm : m.Metric len) (he : m.eulerCharacteristic = 2) (hb : m.nBL = 1) :
    ∃ (d : Bff) (l : List ℕ), m.bff len = .ok d ∧ l.Nodup ∧ (∀ h, h ∈ l ↔ m.heLive h ∧ m.ext h) ∧ (∀ j h, l[j]? = some h → l[(j+1) % l.length]? = some (m.heNext h)) ∧ ∀ u k : ℕ → ℝ,
      ∃ o, m.bffBoundary len d u k = .ok o ∧ ∀ phi target : ℕ → ℝ, (∀ j ≤ l.length, phi j = ∑ i ∈ range j, k (d.bIdx (m.heVertex (m.heNext (l.getD i 0))))) →
        (∀ h, target h = len (heEdge h) * Real.exp (0.5 * (u (d.bIdx (m.heVertex h)) + u (d.bIdx (m.heVertex (m.heNext h)))))) →
        (∀ P, o = some P → ∃ x : ℕ → ℝ,
          (∀ j h, l[j]? = some h → (P (d.bIdx (m.heVertex (m.heNext h)))).x = (P (d.bIdx (m.heVertex h))).x - x h * Real.cos (phi j) ∧
            (P (d.bIdx (m.heVertex (m.heNext h)))).y = (P (d.bIdx (m.heVertex h))).y + x h * Real.sin (phi j)) ∧
          ∀ y : ℕ → ℝ, ∑ j ∈ range l.length, y (l.getD j 0) * Real.cos (phi j) = 0 → ∑ j ∈ range l.length, y (l.getD j 0) * Real.sin (phi j) = 0 →
            ∑ j ∈ range l.length, (x (l.getD j 0) - target (l.getD j 0)) ^ 2 / len (heEdge (l.getD j 0)) ≤
              ∑ j ∈ range l.length, (y (l.getD j 0) - target (l.getD j 0)) ^ 2 / len (heEdge (l.getD j 0))) ∧
        (∀ i j, i < l.length → j < l.length → Real.sin (phi i - phi j) ≠ 0 → o ≠ none) := by
  obtain ⟨vs, hs, is, es, fs, R⟩ := hv.ranges
  obtain ⟨d, s', d1, -, B⟩ := bff_ok len hv R he hb
  obtain ⟨l, l1, l2, l3, l4⟩ := bffHalfedges_ok hv hb
  refine ⟨d, l, d1, l2, l3, l4, fun u k => ?_⟩
  have st : ∃ o, m.bffBoundary len d u k = .ok o ∧ o = ((l.foldl (BffLoop.step m len d.bIdx u k) ⟨0, fun _ => 0, fun _ => 0, fun _ => 0, fun _ => 0⟩).rounded d.iB.length).map fun r =>
      (l.foldl (BffLoop.place m d.bIdx (l.foldl (BffLoop.step m len d.bIdx u k) ⟨0, fun _ => 0, fun _ => 0, fun _ => 0, fun _ => 0⟩) r) ((0, 0), fun _ => ⟨0, 0⟩)).2 :=
    ⟨_, by simp only [bffBoundary, bind, Except.bind, l1], rfl⟩
  obtain ⟨o, o1, o2⟩ := st
  refine ⟨o, o1, fun phi target hphi htar => ?_⟩
  subst o2
  set f : ℕ → ℕ := fun j => l.getD j 0 with hf
  have lf : (List.range l.length).map f = l := by
    refine List.ext_getElem (by simp) (fun i h1 h2 => ?_)
    rw [List.getElem_map, List.getElem_range]
    exact _root_.GC.getD_get l 0 h2
  have fmem : ∀ j < l.length, m.heLive (f j) ∧ m.ext (f j) := fun j hj => (l3 _).1 (by rw [hf]; simp only; rw [_root_.GC.getD_get l 0 hj]; exact List.getElem_mem hj)
  have fget : ∀ j h, l[j]? = some h → j < l.length ∧ f j = h := fun j h e => by
    obtain ⟨a, b⟩ := List.getElem?_eq_some_iff.1 e
    exact ⟨a, by rw [hf]; simp only; rw [_root_.GC.getD_get l 0 a, b]⟩
  have bd : ∀ h, m.heLive h → m.ext h → m.vIsBoundary (m.heVertex h) := fun h hl hx => by
    have := hv.bdy_first h hl hx
    unfold vIsBoundary heIsInterior faceIsBL; unfold ext at this; omega
  have inj : ∀ i < l.length, ∀ j < l.length, d.bIdx (m.heVertex (f i)) = d.bIdx (m.heVertex (f j)) → i = j := by
    intro i hi j hj e
    obtain ⟨a1, a2⟩ := fmem i hi
    obtain ⟨b1, b2⟩ := fmem j hj
    have e1 := (B.bdy _ (hv.vertex_live _ a1) (bd _ a1 a2)).2.1
    have e2 := (B.bdy _ (hv.vertex_live _ b1) (bd _ b1 b2)).2.1
    rw [e, e2] at e1
    have e3 := hv.bdy_unique _ _ a1 b1 a2 b2 (R.iv.2.inj (hv.vertex_live _ a1) (hv.vertex_live _ b1) e1.symm)
    simp only [hf] at e3
    rw [_root_.GC.getD_get l 0 hi, _root_.GC.getD_get l 0 hj] at e3
    exact (l2.getElem_inj_iff).1 e3
  have tw : ∀ j < l.length, m.heVertex (twin (f j)) = m.heVertex (m.heNext (f j)) := fun j hj => by
    have := hv.vertex_vNext (hv.twin_live _ (fmem j hj).1)
    rw [twin_twin] at this
    exact this.symm
  have sumB : ∀ g : ℕ → ℝ, ∑ b ∈ range d.iB.length, g b = ∑ j ∈ range l.length, g (d.bIdx (m.heVertex (f j))) := by
    intro g
    refine (sum_bij (fun j _ => d.bIdx (m.heVertex (f j))) (fun j hj => ?_) (fun i hi j hj e => inj i (mem_range.1 hi) j (mem_range.1 hj) e) (fun b hb' => ?_) (fun _ _ => rfl)).symm
    · obtain ⟨a1, a2⟩ := fmem j (mem_range.1 hj)
      exact mem_range.2 (B.bdy _ (hv.vertex_live _ a1) (bd _ a1 a2)).1
    · obtain ⟨v, vl, vb, e⟩ := B.bsurj b (mem_range.1 hb')
      obtain ⟨h1, h2⟩ := hv.v_he v vl
      have t1 := hv.twin_live _ h1
      have ex : m.ext (m.heNext (twin (m.vHalfedge v))) := by
        unfold ext; rw [hv.face_next t1]
        unfold vIsBoundary heIsInterior faceIsBL at vb; omega
      obtain ⟨j, hj, ej⟩ := List.getElem_of_mem ((l3 _).2 ⟨hv.next_live _ t1, ex⟩)
      refine ⟨j, mem_range.2 hj, ?_⟩
      rw [hf]; simp only
      rw [_root_.GC.getD_get l 0 hj, ej, hv.vertex_vNext h1, h2, e]
  obtain ⟨s, s1, -, s3, -⟩ := bff_steps (len := len) (u := u) (k := k) inj l.length le_rfl
  rw [lf] at s1
  rw [s1]
  have ph : ∀ j ≤ l.length, ∑ i ∈ range j, k (d.bIdx (m.heVertex (twin (f i)))) = phi j := fun j hj => by
    rw [hphi j hj]
    exact sum_congr rfl (fun i hi => by rw [tw i (by have := mem_range.1 hi; omega)])
  have cj : ∀ j < l.length, s.cs (d.bIdx (m.heVertex (f j))) = Real.cos (phi j) := fun j hj => by rw [(s3 j hj).2.1, ph j hj.le]
  have sj : ∀ j < l.length, s.sn (d.bIdx (m.heVertex (f j))) = Real.sin (phi j) := fun j hj => by rw [(s3 j hj).2.2.1, ph j hj.le]
  have nj : ∀ j < l.length, s.nn (d.bIdx (m.heVertex (f j))) = len (heEdge (f j)) := fun j hj => (s3 j hj).2.2.2
  have tj : ∀ j < l.length, s.tl (d.bIdx (m.heVertex (f j))) = target (f j) := fun j hj => by rw [(s3 j hj).1, htar, tw j hj]
  have idx : ∀ b < d.iB.length, ∃ j < l.length, d.bIdx (m.heVertex (f j)) = b := by
    intro b hb'
    by_contra c
    push Not at c
    have := sumB (fun i => if i = b then 1 else 0)
    rw [sum_ite_eq' , if_pos (mem_range.2 hb'), sum_eq_zero (fun j hj => if_neg (c j (mem_range.1 hj)))] at this
    exact one_ne_zero this
  have npos : ∀ b < d.iB.length, 0 < s.nn b := fun b hb' => by
    obtain ⟨j, hj, rfl⟩ := idx b hb'
    rw [nj j hj]
    exact len_pos hv hm (fmem j hj).1
  have klt : ∀ j < l.length, d.bIdx (m.heVertex (f j)) < d.iB.length := fun j hj => (B.bdy _ (hv.vertex_live _ (fmem j hj).1) (bd _ (fmem j hj).1 (fmem j hj).2)).1
  refine ⟨fun P hP => ?_, fun i j hi hj hne => ?_⟩
  · obtain ⟨r, hr, hP⟩ := Option.map_eq_some_iff.1 hP
    obtain ⟨z1, z2, mn⟩ := BffLoop.rounded_some hr
    obtain ⟨t, t1, -, t3⟩ := bff_places (s := s) (r := r) inj l.length le_rfl
    rw [lf] at t1
    rw [t1] at hP
    subst hP
    refine ⟨fun h => r (d.bIdx (m.heVertex h)), fun j h hjh => ?_, fun y y1 y2 => ?_⟩
    · obtain ⟨hj, rfl⟩ := fget j h hjh
      obtain ⟨hj', ej⟩ := fget _ _ (l4 j _ hjh)
      rw [← ej, t3 j hj, t3 _ hj']
      by_cases c : j + 1 < l.length
      · rw [Nat.mod_eq_of_lt c]
        simp only [sum_range_succ, cj j hj, sj j hj]
        exact ⟨by ring, trivial⟩
      · have c' : l.length = j + 1 := by omega
        rw [c', Nat.mod_self]
        rw [sumB, c', sum_range_succ, cj j hj] at z1
        rw [sumB, c', sum_range_succ, sj j hj] at z2
        simp only [range_zero, sum_empty, neg_zero, mul_comm (r _)]
        constructor
        · rw [mul_comm] at z1
          linarith
        · linarith
    · set y' : ℕ → ℝ := fun b => ∑ j ∈ range l.length, if d.bIdx (m.heVertex (f j)) = b then y (f j) else 0 with hy'
      have yj : ∀ j < l.length, y' (d.bIdx (m.heVertex (f j))) = y (f j) := fun j hj => by
        simp only [hy']
        rw [sum_eq_single j (fun i hi ne => if_neg (fun e => ne (inj i (mem_range.1 hi) j hj e))) (fun h => absurd (mem_range.2 hj) h), if_pos rfl]
      have := mn npos y' (by
        rw [sumB, ← y1]
        exact sum_congr rfl (fun j hj => by rw [yj j (mem_range.1 hj), cj j (mem_range.1 hj), mul_comm])) (by
        rw [sumB, ← y2]
        exact sum_congr rfl (fun j hj => by rw [yj j (mem_range.1 hj), sj j (mem_range.1 hj), mul_comm]))
      rw [sumB, sumB] at this
      refine le_of_eq_of_le (sum_congr rfl (fun j hj => ?_)) (le_of_le_of_eq this (sum_congr rfl (fun j hj => ?_)))
      · rw [tj j (mem_range.1 hj), nj j (mem_range.1 hj)]
      · rw [tj j (mem_range.1 hj), nj j (mem_range.1 hj), yj j (mem_range.1 hj)]
  · intro hn
    refine BffLoop.rounded_ne npos (klt i hi) (klt j hj) ?_ (Option.map_eq_none_iff.1 hn)
    rw [cj i hi, cj j hj, sj i hi, sj j hj]
    intro e
    exact hne (by rw [Real.sin_sub]; linarith)

/-- The triangle is a disk: the hypotheses of the theorems hold, for the exterior angles of an equilateral triangle, whose directions are not parallel, and for scale factors that are not
zero. -/
example : lone.Valid ∧ lone.TriFaces ∧ lone.Metric (fun _ => 1) ∧ lone.eulerCharacteristic = 2 ∧ lone.nBL = 1 ∧ lone.AllJoined ∧
    (∃ S : LinSolver ℝ, S.Exact) ∧ ∑ _b ∈ range 3, 2 * Real.pi / 3 = 2 * Real.pi ∧ Real.sin (2 * Real.pi / 3 - 0) ≠ 0 ∧ ∃ v, lone.vLive v ∧ lone.vIsBoundary v := by
  refine ⟨lone_valid, lone_tri, metric_one _, by decide +kernel, by decide +kernel, lone_joined, LinSolver.exists_exact ℝ, by simp; ring, ?_, 0, by decide +kernel, by decide +kernel⟩
  rw [sub_zero]
  exact (Real.sin_pos_of_pos_of_lt_pi (by positivity) (by linarith [Real.pi_pos])).ne'

/-- On the triangle with sides of length one and scale factors one at all vertices, the angles returned by `dirichletToNeumann` do not belong to these scale factors. -/
example : ∃ d s ind, lone.bff (fun _ => 1) = .ok d ∧ lone.vertexAngleSums (fun _ => 1) = .ok s ∧ lone.getVertexIndices = .ok ind ∧ ∀ (S : LinSolver ℝ), S.Exact →
    ¬ lone.ScaledFlat d.Ls ind s (fun _ => 1) (fun v => d.dirichletToNeumann S (fun _ => 1) (d.bIdx v)) := by
  obtain ⟨d, s, ind, h1, h2, h3, h⟩ := C92_neumann lone (fun _ => 1) lone_valid lone_tri (metric_one _) (by decide +kernel) (by decide +kernel)
  refine ⟨d, s, ind, h1, h2, h3, fun S hS c => ?_⟩
  exact one_ne_zero (((h S hS (fun _ => 1)).2.1 c) 0 (by decide +kernel) (by decide +kernel))

end Mesh
end GC
