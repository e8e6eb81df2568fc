import Verif.PolygonSigned
import Verif.Props.PolygonHeat
import Verif.Props.Soup

/-! # C90: signed distance on polygon meshes with level set constraints -/

namespace GC
open Matrix
open Classical Finset

/-! ## Linear algebra -/

/-- Where the form of a symmetric semidefinite matrix vanishes, so does the matrix. -/
theorem form_zero {n : ℕ} {L : ℕ → ℕ → ℝ} (sym : ∀ i < n, ∀ j < n, L i j = L j i) (psd : ∀ u : ℕ → ℝ, 0 ≤ ∑ i ∈ range n, ∑ j ∈ range n, u i * L i j * u j) {y : ℕ → ℝ}
    (h : ∑ i ∈ range n, y i * ∑ j ∈ range n, L i j * y j = 0) : ∀ i < n, ∑ j ∈ range n, L i j * y j = 0 := by
  intro k hk
  set r := fun i => ∑ j ∈ range n, L i j * y j with hr
  have e : ∀ t : ℝ, ∑ i ∈ range n, ∑ j ∈ range n, (y i + t * r i) * L i j * (y j + t * r j) =
      2 * t * (∑ i ∈ range n, r i * r i) + t * t * ∑ i ∈ range n, ∑ j ∈ range n, r i * L i j * r j := by
    intro t
    have s1 : ∑ i ∈ range n, ∑ j ∈ range n, y i * L i j * y j = 0 := by
      rw [← h]
      refine sum_congr rfl (fun i _ => ?_)
      rw [mul_sum]
      exact sum_congr rfl (fun j _ => by ring)
    have s2 : ∑ i ∈ range n, ∑ j ∈ range n, r i * L i j * y j = ∑ i ∈ range n, r i * r i := by
      refine sum_congr rfl (fun i _ => ?_)
      rw [show r i * r i = r i * ∑ j ∈ range n, L i j * y j from rfl, mul_sum]
      exact sum_congr rfl (fun j _ => by ring)
    have s3 : ∑ i ∈ range n, ∑ j ∈ range n, y i * L i j * r j = ∑ i ∈ range n, r i * r i := by
      rw [sum_comm, ← s2]
      refine sum_congr rfl (fun i hi => sum_congr rfl (fun j hj => ?_))
      rw [sym j (mem_range.1 hj) i (mem_range.1 hi)]
      ring
    have : ∀ i j, (y i + t * r i) * L i j * (y j + t * r j) = y i * L i j * y j + t * (r i * L i j * y j) + t * (y i * L i j * r j) + t * t * (r i * L i j * r j) := fun i j => by ring
    simp only [this, sum_add_distrib, ← mul_sum]
    rw [s1, s2, s3]
    ring
  set a := ∑ i ∈ range n, r i * r i with ha
  set b := ∑ i ∈ range n, ∑ j ∈ range n, r i * L i j * r j with hb
  have a0 : 0 ≤ a := sum_nonneg (fun i _ => mul_self_nonneg _)
  have b0 : 0 ≤ b := psd r
  have az : a = 0 := by
    by_contra c
    have ap : 0 < a := lt_of_le_of_ne a0 (Ne.symm c)
    have := psd (fun i => y i + (-(a / (b + 1))) * r i)
    rw [e] at this
    have b1 : 0 < b + 1 := by linarith
    have : 0 ≤ (2 * -(a / (b + 1)) * a + -(a / (b + 1)) * -(a / (b + 1)) * b) * (b + 1) ^ 2 := mul_nonneg this (sq_nonneg _)
    have e2 : (2 * -(a / (b + 1)) * a + -(a / (b + 1)) * -(a / (b + 1)) * b) * (b + 1) ^ 2 = -(a ^ 2) * (b + 2) := by
      field_simp
      ring
    rw [e2] at this
    nlinarith [mul_pos (mul_pos ap ap) (show (0 : ℝ) < b + 2 by linarith)]
  have := (sum_eq_zero_iff_of_nonneg (fun i _ => mul_self_nonneg (r i))).1 (ha.symm.trans az) k (mem_range.2 hk)
  exact mul_self_eq_zero.1 this

theorem getD_get {α : Type} (l : List α) (d : α) {i : ℕ} (h : i < l.length) : l.getD i d = l[i] := by
  rw [List.getD_eq_getElem?_getD, List.getElem?_eq_getElem h, Option.getD_some]

theorem sum_getD {α : Type} (l : List α) (d : α) (f : α → ℝ) : ∑ i ∈ range l.length, f (l.getD i d) = (l.map f).sum := by
  induction l with
  | nil => simp
  | cons a l ih =>
    rw [List.length_cons, sum_range_succ', List.map_cons, List.sum_cons, ← ih, add_comm]
    rfl

theorem sum_filter_range (n : ℕ) (p : ℕ → Bool) (f : ℕ → ℝ) : (((List.range n).filter p).map f).sum = ∑ k ∈ range n, if p k then f k else 0 := by
  induction n with
  | zero => simp
  | succ n ih =>
    rw [List.range_succ, List.filter_append, List.map_append, List.sum_append, ih, sum_range_succ]
    congr 1
    by_cases c : p n <;> simp [c]

namespace Mesh
variable {m : Mesh} {pos : ℕ → V3} {vs hs is es fs : List ℕ}

/-- The common part of the integration: the function itself solves the equation, and functions that solve it have its differences. -/
theorem signed_step {A : ℕ → ℝ} {N : ℕ → V3} (P : m.PlanarFaces pos A N) (hv : m.Valid) (R : m.Ranges vs hs is es fs) {lam : ℝ} (hl : 0 < lam) (hJ : m.AllJoined) {φ : ℕ → ℝ}
    {g : ℕ → V3} (G : m.FaceGradient pos N φ g) {Y : ℕ → ℝ} (hY : ∀ f, m.fLive f → f < m.nFFill → rowV3 Y (number fs f) = (g f).smul (-1)) :
    ∃ (L D : ℕ → ℕ → ℝ) (ψ : ℕ → ℝ), m.polygonLaplacian pos lam = .ok L ∧ m.polygonDivergenceMatrix pos = .ok D ∧ (∀ i < m.nV, ∑ j ∈ range m.nV, L i j * ψ j = ∑ k ∈ range (3 * m.nF), D i k * Y k) ∧
      (∀ v, m.vLive v → ψ (number vs v) = φ v) ∧ (∀ i < m.nV, ∀ j < m.nV, L i j = L j i) ∧ (∀ i < m.nV, ∑ j ∈ range m.nV, L i j = 0) ∧
      ∀ y : ℕ → ℝ, ∑ i ∈ range m.nV, y i * ∑ j ∈ range m.nV, L i j * y j = 0 → ∀ i < m.nV, ∀ j < m.nV, y i = y j := by
  obtain ⟨L, D, l1, d1, key⟩ := poisson_step P hv R hl hJ G
  obtain ⟨L', ind, l1', -, sym, row, psd, -⟩ := C85_laplacian m pos lam hv hl P.areas P.area
  rw [l1] at l1'
  injection l1' with l1'
  subst l1'
  have hY' : ∀ f ∈ m.faces, ∀ c : _root_.Fin 3, -Y (3 * number fs f + c.1) = (g f).toEigen c := by
    intro f hf c
    obtain ⟨q1, q2⟩ := mem_faces.1 hf
    have e := hY f q1 q2
    simp only [rowV3, V3.smul, V3.mk.injEq, mul_neg, mul_one] at e
    obtain ⟨e0, e1, e2⟩ := e
    fin_cases c
    · show -Y (3 * number fs f + 0) = (g f).x; rw [add_zero, e0, neg_neg]
    · show -Y (3 * number fs f + 1) = (g f).y; rw [e1, neg_neg]
    · show -Y (3 * number fs f + 2) = (g f).z; rw [e2, neg_neg]
  obtain ⟨⟨x, hx⟩, p2⟩ := key (fun k => -Y k) hY' (fun i => ∑ k ∈ range (3 * m.nF), D i k * Y k) (fun i _ => sum_congr rfl (fun k _ => by ring))
  have p3 := p2 x hx
  obtain ⟨ψ, hψ⟩ : ∃ ψ : ℕ → ℝ, ∀ v, m.vLive v → ψ (number vs v) = φ v := by
    refine ⟨fun k => if h : k < m.nV then φ (R.iv.2.2.1 k h).choose else 0, fun v hl => ?_⟩
    have lt := R.iv.2.1 v hl
    simp only [dif_pos lt]
    have := (R.iv.2.2.1 _ lt).choose_spec
    rw [R.iv.2.inj this.1 hl this.2]
  have dif : ∀ i < m.nV, ∀ j < m.nV, x i - x j = ψ i - ψ j := by
    intro i hi j hj
    obtain ⟨v, q, rfl⟩ := R.iv.2.2.1 i hi
    obtain ⟨w, q', rfl⟩ := R.iv.2.2.1 j hj
    rw [p3 v w q q', hψ v q, hψ w q']
  refine ⟨L, D, ψ, l1, d1, fun i hi => ?_, hψ, sym, row, fun y hy i hi j hj => ?_⟩
  · rw [← hx i hi]
    have : ∀ j ∈ range m.nV, L i j * ψ j = L i j * x j + L i j * (ψ i - x i) := fun j hj => by
      rw [show ψ j = x j + (ψ i - x i) by linarith [dif i hi j (mem_range.1 hj)]]; ring
    rw [sum_congr rfl this, sum_add_distrib, ← sum_mul, row i hi, zero_mul, add_zero]
  · have ker := form_zero sym psd hy
    have p4 := p2 (fun k => x k + y k) (fun i hi => by
      simp only [mul_add, sum_add_distrib]
      rw [hx i hi, ker i hi, add_zero])
    obtain ⟨v, q, rfl⟩ := R.iv.2.2.1 i hi
    obtain ⟨w, q', rfl⟩ := R.iv.2.2.1 j hj
    linarith [p4 v w q q', p3 v w q q']

/-! ## The curves as zero set -/

/-- **C90, zero set.** On a connected mesh with planar triangles and quadrilaterals: when the unit vectors are the negative gradients of a function that vanishes on the
curves, the result with the constraint `ZeroSet` is this function. -/
theorem C90_zero_set (m : Mesh) (pos : ℕ → V3) (S : LinSolver ℝ) (lam : ℝ) (hS : S.Exact) (hv : m.Valid) (hl : 0 < lam) {A : ℕ → ℝ} {N : ℕ → V3}
    (P : m.PlanarFaces pos A N) (hJ : m.AllJoined) (curves : List (List ℕ)) (hlive : ∀ c ∈ curves, ∀ v ∈ c, m.vLive v) (hc : ∃ c ∈ curves, c ≠ []) (φ : ℕ → ℝ)
    (h0 : ∀ c ∈ curves, ∀ v ∈ c, φ v = 0) (g : ℕ → V3) (G : m.FaceGradient pos N φ g) (fInd : ℕ → ℕ) (hf : m.getFaceIndices = .ok fInd) (Y : ℕ → ℝ)
    (hY : ∀ f, m.fLive f → f < m.nFFill → rowV3 Y (fInd f) = (g f).smul (-1)) :
    ∃ d, m.integrateZeroSet pos S lam curves Y = .ok d ∧ ∀ v, m.vLive v → d v = φ v := by
  obtain ⟨vs, hs, is, es, fs, R⟩ := hv.ranges
  rw [R.if'.1] at hf
  injection hf with hf
  subst hf
  obtain ⟨L, D, ψ, l1, d1, sol, hψ, sym, row, ker⟩ := signed_step P hv R hl hJ G hY
  set b := fun i => ∑ k ∈ range (3 * m.nF), D i k * Y k with hb
  set p : ℕ → Bool := fun k => decide (¬ ∃ c ∈ curves, ∃ v ∈ c, number vs v = k) with hp
  set T := (List.range m.nV).filter p with hT
  have memT : ∀ k, k ∈ T ↔ k < m.nV ∧ p k = true := fun k => by rw [hT, List.mem_filter, List.mem_range]
  have nodup : T.Nodup := List.nodup_range.filter _
  have getT : ∀ i < T.length, T.getD i 0 ∈ T := fun i hi => by
    rw [getD_get _ _ hi]; exact List.getElem_mem hi
  have sumT : ∀ f : ℕ → ℝ, ∑ i ∈ range T.length, f (T.getD i 0) = ∑ k ∈ range m.nV, if p k then f k else 0 := fun f => by
    rw [sum_getD, hT, sum_filter_range]
  have off : ∀ k < m.nV, p k = false → ψ k = 0 := by
    intro k hk e
    simp only [hp, decide_eq_false_iff_not, not_not] at e
    obtain ⟨c, hc, v, hv', rfl⟩ := e
    rw [hψ v (hlive c hc v hv'), h0 c hc v hv']
  have restrict : ∀ z : ℕ → ℝ, (∀ k < m.nV, p k = false → z k = 0) → ∀ i, ∑ j ∈ range T.length, L i (T.getD j 0) * z (T.getD j 0) = ∑ j ∈ range m.nV, L i j * z j := by
    intro z hz i
    rw [sumT (fun k => L i k * z k)]
    refine sum_congr rfl (fun k hk => ?_)
    split
    · rfl
    · next h => rw [hz k (mem_range.1 hk) (by simpa using h), mul_zero]
  have ex : ∃ x : ℕ → ℝ, ∀ i < T.length, ∑ j ∈ range T.length, L (T.getD i 0) (T.getD j 0) * x j = b (T.getD i 0) := by
    refine ⟨fun j => ψ (T.getD j 0), fun i hi => ?_⟩
    rw [restrict ψ off]
    exact sol _ ((memT _).1 (getT i hi)).1
  have so := hS T.length (fun i j => L (T.getD i 0) (T.getD j 0)) (fun i => b (T.getD i 0)) ex
  set x := S T.length (fun i j => L (T.getD i 0) (T.getD j 0)) (fun i => b (T.getD i 0)) with hx
  set z : ℕ → ℝ := fun k => if k ∈ T then x (T.idxOf k) else 0 with hz
  have zT : ∀ j < T.length, z (T.getD j 0) = x j := by
    intro j hj
    rw [hz]
    simp only [getT j hj, if_true]
    rw [getD_get _ _ hj, nodup.idxOf_getElem]
  have zoff : ∀ k < m.nV, p k = false → z k = 0 := by
    intro k hk e
    refine if_neg (fun h => ?_)
    rw [(memT k).1 h |>.2] at e
    cases e
  have zsol : ∀ k < m.nV, p k = true → ∑ j ∈ range m.nV, L k j * z j = b k := by
    intro k hk e
    have kT := (memT k).2 ⟨hk, e⟩
    have lt := List.idxOf_lt_length_iff.2 kT
    have := so _ lt
    rw [getD_get _ _ lt, List.getElem_idxOf] at this
    rw [← this, ← restrict z zoff]
    exact sum_congr rfl (fun j hj => by rw [zT j (mem_range.1 hj)])
  have form : ∑ i ∈ range m.nV, (z i - ψ i) * ∑ j ∈ range m.nV, L i j * (z j - ψ j) = 0 := by
    refine sum_eq_zero (fun i hi => ?_)
    have hi := mem_range.1 hi
    by_cases c : p i = true
    · have : ∑ j ∈ range m.nV, L i j * (z j - ψ j) = 0 := by
        simp only [mul_sub, sum_sub_distrib]
        rw [zsol i hi c, sol i hi, sub_self]
      rw [this, mul_zero]
    · rw [zoff i hi (by simpa using c), off i hi (by simpa using c), sub_self, zero_mul]
  have cst := ker _ form
  obtain ⟨c0, m0, n0⟩ := hc
  obtain ⟨v0, hv0⟩ := List.exists_mem_of_ne_nil _ n0
  have i0 := R.iv.2.1 v0 (hlive c0 m0 v0 hv0)
  have p0 : p (number vs v0) = false := by
    simp only [hp, decide_eq_false_iff_not, not_not]
    exact ⟨c0, m0, v0, hv0, rfl⟩
  refine ⟨fun v => z (number vs v), ?_, fun v hl' => ?_⟩
  · unfold integrateZeroSet
    simp only [R.iv.1, d1, l1, bind, Except.bind]
    rw [if_neg (by
      rintro ⟨c, hc, v, hv', h⟩
      have := R.iv.2.1 v (hlive c hc v hv')
      omega)]
  · have := cst _ (R.iv.2.1 v hl') _ i0
    rw [zoff _ i0 p0, off _ i0 p0, hψ v hl', sub_self] at this
    exact sub_eq_zero.1 this

/-! ## The curves as level sets -/

theorem levelMatrix_sum {ps : List (ℕ × ℕ)} {n : ℕ} (h : ∀ p ∈ ps, p.1 < n ∧ p.2 < n) {r : ℕ} (hr : r < ps.length) (y : ℕ → ℝ) :
    ∑ j ∈ range n, levelMatrix ps r j * y j = y (ps.getD r (0, 0)).1 - y (ps.getD r (0, 0)).2 := by
  have hm : ps.getD r (0, 0) ∈ ps := by
    rw [getD_get _ _ hr]; exact List.getElem_mem hr
  obtain ⟨a, b⟩ := h _ hm
  unfold levelMatrix
  simp only [add_mul, sum_add_distrib, ite_mul, one_mul, zero_mul, neg_mul]
  rw [sum_ite_eq' (range n), sum_ite_eq' (range n), if_pos (mem_range.2 a), if_pos (mem_range.2 b), sub_eq_add_neg]

theorem sum_range_add (n k : ℕ) (f : ℕ → ℝ) : ∑ i ∈ range (n + k), f i = ∑ i ∈ range n, f i + ∑ i ∈ range k, f (n + i) := by
  induction k with
  | zero => simp
  | succ k ih => rw [← add_assoc, sum_range_succ, ih, sum_range_succ, add_assoc]

theorem saddle_top {V k : ℕ} {L A : ℕ → ℕ → ℝ} {i : ℕ} (hi : i < V) (x : ℕ → ℝ) :
    ∑ j ∈ range (V + k), saddle V L A i j * x j = ∑ j ∈ range V, L i j * x j + ∑ r ∈ range k, A r i * x (V + r) := by
  rw [sum_range_add]
  congr 1
  · exact sum_congr rfl (fun j hj => by rw [saddle, if_pos hi, if_pos (mem_range.1 hj)])
  · exact sum_congr rfl (fun j _ => by rw [saddle, if_pos hi, if_neg (by omega), Nat.add_sub_cancel_left])

theorem saddle_bottom {V k : ℕ} {L A : ℕ → ℕ → ℝ} (r : ℕ) (x : ℕ → ℝ) :
    ∑ j ∈ range (V + k), saddle V L A (V + r) j * x j = ∑ j ∈ range V, A r j * x j := by
  rw [sum_range_add]
  have : ∑ j ∈ range k, saddle V L A (V + r) (V + j) * x (V + j) = 0 :=
    sum_eq_zero (fun j _ => by rw [saddle, if_neg (by omega), if_neg (by omega), zero_mul])
  rw [this, add_zero]
  exact sum_congr rfl (fun j hj => by rw [saddle, if_neg (by omega), if_pos (mem_range.1 hj), Nat.add_sub_cancel_left])

theorem levelPairs_mem {ind : ℕ → ℕ} {curves : List (List ℕ)} {p : ℕ × ℕ} (h : p ∈ levelPairs ind curves) :
    ∃ c ∈ curves, ∃ v ∈ c, ∃ w ∈ c, p = (ind v, ind w) := by
  obtain ⟨c, hc, h⟩ := List.mem_flatMap.1 h
  cases c with
  | nil => cases h
  | cons v l =>
    obtain ⟨w, hw, rfl⟩ := List.mem_map.1 h
    exact ⟨_, hc, v, List.mem_cons_self, w, List.mem_cons_of_mem _ hw, rfl⟩

/-- **C90, level sets.** On a connected mesh with planar triangles and quadrilaterals: when the unit vectors are the negative gradients of a function that is constant on
each curve, the result with the constraint `Multiple` is this function up to a constant, with average zero on the curves. -/
theorem C90_multiple (m : Mesh) (pos : ℕ → V3) (S : LinSolver ℝ) (lam : ℝ) (hS : S.Exact) (hv : m.Valid) (hl : 0 < lam) {A : ℕ → ℝ} {N : ℕ → V3}
    (P : m.PlanarFaces pos A N) (hJ : m.AllJoined) (curves : List (List ℕ)) (hlive : ∀ c ∈ curves, ∀ v ∈ c, m.vLive v) (hc : [] ∉ curves) (hlen : curveLength pos curves ≠ 0)
    (φ : ℕ → ℝ) (h0 : ∀ c ∈ curves, ∀ v ∈ c, ∀ w ∈ c, φ v = φ w) (g : ℕ → V3) (G : m.FaceGradient pos N φ g) (fInd : ℕ → ℕ) (hf : m.getFaceIndices = .ok fInd) (Y : ℕ → ℝ)
    (hY : ∀ f, m.fLive f → f < m.nFFill → rowV3 Y (fInd f) = (g f).smul (-1)) :
    ∃ d, m.integrateMultiple pos S lam curves Y = .ok (some d) ∧ (∀ v w, m.vLive v → m.vLive w → d v - d w = φ v - φ w) ∧ curveIntegral pos d curves = 0 := by
  obtain ⟨vs, hs, is, es, fs, R⟩ := hv.ranges
  rw [R.if'.1] at hf
  injection hf with hf
  subst hf
  obtain ⟨L, D, ψ, l1, d1, sol, hψ, sym, row, ker⟩ := signed_step P hv R hl hJ G hY
  set b := fun i => ∑ k ∈ range (3 * m.nF), D i k * Y k with hb
  set ps := levelPairs (number vs) curves with hps
  have bd : ∀ p ∈ ps, p.1 < m.nV ∧ p.2 < m.nV := by
    intro p hp
    obtain ⟨c, hc, v, hv', w, hw, rfl⟩ := levelPairs_mem hp
    exact ⟨R.iv.2.1 v (hlive c hc v hv'), R.iv.2.1 w (hlive c hc w hw)⟩
  have same : ∀ r < ps.length, ψ (ps.getD r (0, 0)).1 = ψ (ps.getD r (0, 0)).2 := by
    intro r hr
    have hm : ps.getD r (0, 0) ∈ ps := by
      rw [getD_get _ _ hr]; exact List.getElem_mem hr
    obtain ⟨c, hc, v, hv', w, hw, e⟩ := levelPairs_mem hm
    rw [e, hψ v (hlive c hc v hv'), hψ w (hlive c hc w hw), h0 c hc v hv' w hw]
  set H := saddle m.nV L (levelMatrix ps) with hH
  set rhs : ℕ → ℝ := fun i => if i < m.nV then b i else 0 with hrhs
  have ex : ∃ x : ℕ → ℝ, ∀ i < m.nV + ps.length, ∑ j ∈ range (m.nV + ps.length), H i j * x j = rhs i := by
    refine ⟨fun k => if k < m.nV then ψ k else 0, fun i hi => ?_⟩
    by_cases c : i < m.nV
    · rw [hH, saddle_top c, hrhs]
      simp only [c, if_true]
      rw [show b i = _ from (sol i c).symm]
      have : ∑ r ∈ range ps.length, levelMatrix ps r i * (if m.nV + r < m.nV then ψ (m.nV + r) else 0) = 0 := sum_eq_zero (fun r _ => by rw [if_neg (by omega), mul_zero])
      rw [this, add_zero]
      exact sum_congr rfl (fun j hj => by rw [if_pos (mem_range.1 hj)])
    · obtain ⟨r, rfl⟩ : ∃ r, i = m.nV + r := ⟨i - m.nV, by omega⟩
      have hr : r < ps.length := by omega
      rw [hH, saddle_bottom, hrhs]
      simp only [c, if_false]
      rw [levelMatrix_sum bd hr]
      have hm : ps.getD r (0, 0) ∈ ps := by
        rw [getD_get _ _ hr]; exact List.getElem_mem hr
      rw [if_pos (bd _ hm).1, if_pos (bd _ hm).2, same r hr, sub_self]
  have so := hS (m.nV + ps.length) H rhs ex
  set x := S (m.nV + ps.length) H rhs with hx
  have top : ∀ i < m.nV, ∑ j ∈ range m.nV, L i j * x j + ∑ r ∈ range ps.length, levelMatrix ps r i * x (m.nV + r) = b i := by
    intro i hi
    have := so i (by omega)
    rw [hH, saddle_top hi] at this
    rw [this, hrhs]
    simp only [hi, if_true]
  have bot : ∀ r < ps.length, x (ps.getD r (0, 0)).1 = x (ps.getD r (0, 0)).2 := by
    intro r hr
    have := so (m.nV + r) (by omega)
    rw [hH, saddle_bottom, levelMatrix_sum bd hr, hrhs] at this
    simp only [show ¬ m.nV + r < m.nV by omega, if_false] at this
    exact sub_eq_zero.1 this
  have form : ∑ i ∈ range m.nV, (x i - ψ i) * ∑ j ∈ range m.nV, L i j * (x j - ψ j) = 0 := by
    have e : ∀ i ∈ range m.nV, (x i - ψ i) * ∑ j ∈ range m.nV, L i j * (x j - ψ j) = ∑ r ∈ range ps.length, -(levelMatrix ps r i * (x i - ψ i) * x (m.nV + r)) := by
      intro i hi
      have hi := mem_range.1 hi
      have : ∑ j ∈ range m.nV, L i j * (x j - ψ j) = -∑ r ∈ range ps.length, levelMatrix ps r i * x (m.nV + r) := by
        simp only [mul_sub, sum_sub_distrib]
        have s := sol i hi
        linarith [top i hi]
      rw [this, mul_neg, mul_sum, ← sum_neg_distrib]
      exact sum_congr rfl (fun r _ => by ring)
    rw [sum_congr rfl e, sum_comm]
    refine sum_eq_zero (fun r hr => ?_)
    have hr := mem_range.1 hr
    rw [sum_neg_distrib, ← sum_mul, levelMatrix_sum bd hr (fun i => x i - ψ i), bot r hr, same r hr, sub_self, zero_mul, neg_zero]
  have cst := ker _ form
  have dif : ∀ v w, m.vLive v → m.vLive w → x (number vs v) - x (number vs w) = φ v - φ w := by
    intro v w h1 h2
    have := cst _ (R.iv.2.1 v h1) _ (R.iv.2.1 w h2)
    rw [hψ v h1, hψ w h2] at this
    linarith
  set c := curveIntegral pos (fun v => x (number vs v)) curves / curveLength pos curves with hcd
  refine ⟨fun v => x (number vs v) - c, ?_, fun v w hv' hw => ?_, ?_⟩
  · unfold integrateMultiple
    simp only [R.iv.1, d1, l1, bind, Except.bind]
    rw [if_neg (by
      rintro ⟨p, hp, h⟩
      have := bd p hp
      omega), ← hx, (C89_average pos (number vs) x curves).2 hc, if_neg hlen]
    rfl
  · rw [← dif v w hv' hw]; ring
  · have : ∀ l : List (ℕ × ℕ), (l.map fun s => ((pos s.2).sub (pos s.1)).norm * ((x (number vs s.1) - c + (x (number vs s.2) - c)) / 2)).sum =
        (l.map fun s => ((pos s.2).sub (pos s.1)).norm * ((x (number vs s.1) + x (number vs s.2)) / 2)).sum - c * (l.map fun s => ((pos s.2).sub (pos s.1)).norm).sum := by
      intro l
      induction l with
      | nil => simp
      | cons a l ih => simp only [List.map_cons, List.sum_cons, ih]; ring
    unfold curveIntegral
    rw [this]
    show curveIntegral pos (fun v => x (number vs v)) curves - c * curveLength pos curves = 0
    rw [hcd, div_mul_cancel₀ _ hlen, sub_self]

/-- **C90, level sets (negative).** The matrix that is passed to the solver for square systems with the constraint `Multiple` is singular on every mesh: it vanishes on the
constant functions. -/
theorem C90_multiple_singular (m : Mesh) (pos : ℕ → V3) (lam : ℝ) (hv : m.Valid) (hl : 0 < lam) {A : ℕ → ℝ} (hA : m.faceAreasE pos = .ok A)
    (hp : ∀ f, m.fLive f → f < m.nFFill → 0 < A f) (curves : List (List ℕ)) (hlive : ∀ c ∈ curves, ∀ v ∈ c, m.vLive v) :
    ∃ L ind, m.polygonLaplacian pos lam = .ok L ∧ m.getVertexIndices = .ok ind ∧ ∀ i < m.nV + (levelPairs ind curves).length,
      ∑ j ∈ range (m.nV + (levelPairs ind curves).length), saddle m.nV L (levelMatrix (levelPairs ind curves)) i j * (if j < m.nV then 1 else 0) = 0 := by
  obtain ⟨vs, hs, is, es, fs, R⟩ := hv.ranges
  obtain ⟨L, ind, l1, i1, -, row, -, -⟩ := C85_laplacian m pos lam hv hl hA hp
  rw [R.iv.1] at i1
  injection i1 with i1
  subst i1
  have bd : ∀ p ∈ levelPairs (number vs) curves, p.1 < m.nV ∧ p.2 < m.nV := by
    intro p hp
    obtain ⟨c, hc, v, hv', w, hw, rfl⟩ := levelPairs_mem hp
    exact ⟨R.iv.2.1 v (hlive c hc v hv'), R.iv.2.1 w (hlive c hc w hw)⟩
  refine ⟨L, _, l1, R.iv.1, fun i hi => ?_⟩
  by_cases c : i < m.nV
  · rw [saddle_top c]
    have : ∑ r ∈ range (levelPairs (number vs) curves).length, levelMatrix (levelPairs (number vs) curves) r i * (if m.nV + r < m.nV then (1 : ℝ) else 0) = 0 :=
      sum_eq_zero (fun r _ => by rw [if_neg (by omega), mul_zero])
    rw [this, add_zero, ← row i c]
    exact sum_congr rfl (fun j hj => by rw [if_pos (mem_range.1 hj), mul_one])
  · obtain ⟨r, rfl⟩ : ∃ r, i = m.nV + r := ⟨i - m.nV, by omega⟩
    have hr : r < (levelPairs (number vs) curves).length := by omega
    have hm : (levelPairs (number vs) curves).getD r (0, 0) ∈ levelPairs (number vs) curves := by
      rw [getD_get _ _ hr]; exact List.getElem_mem hr
    rw [saddle_bottom, levelMatrix_sum bd hr, if_pos (bd _ hm).1, if_pos (bd _ hm).2, sub_self]

/-! ## Averages on the faces -/

theorem cornerSum_eq (ind : ℕ → ℕ) (basis : ℕ → V3 × V3) (Xt : ℕ → ℂ) (l : List ℕ) :
    (cornerSum ind basis Xt l).toEigen = (l.map fun v => (tangent (basis v) (Xt (ind v))).toEigen).sum := by
  have key : ∀ (l : List ℕ) (Y : V3), (l.foldl (fun Y v => (Y.add ((basis v).1.smul (Xt (ind v)).re)).add ((basis v).2.smul (Xt (ind v)).im)) Y).toEigen =
      Y.toEigen + (l.map fun v => (tangent (basis v) (Xt (ind v))).toEigen).sum := by
    intro l
    induction l with
    | nil => intro Y; simp
    | cons a l ih =>
      intro Y
      rw [List.foldl_cons, ih, List.map_cons, List.sum_cons, ← add_assoc]
      congr 1
      simp only [tangent, toEigen_add, toEigen_smul, add_assoc]
  have := key l ⟨0, 0, 0⟩
  rw [cornerSum, this]
  have z : (⟨0, 0, 0⟩ : V3).toEigen = 0 := by
    funext c; fin_cases c <;> rfl
  rw [z, zero_add]

theorem rowV3_fold (l : List (ℕ × V3)) (hn : (l.map (·.1)).Nodup) (Y : ℕ → ℝ) : (∀ k, k ∉ l.map (·.1) →
      rowV3 (l.foldl (fun Y p k => if k / 3 = p.1 then comp p.2 (k % 3) / p.2.norm else Y k) Y) k = rowV3 Y k) ∧
    ∀ p ∈ l, rowV3 (l.foldl (fun Y p k => if k / 3 = p.1 then comp p.2 (k % 3) / p.2.norm else Y k) Y) p.1 = p.2.smul (1 / p.2.norm) := by
  induction l generalizing Y with
  | nil => simp
  | cons a l ih =>
    rw [List.map_cons, List.nodup_cons] at hn
    obtain ⟨h1, h2⟩ := ih hn.2 (fun k => if k / 3 = a.1 then comp a.2 (k % 3) / a.2.norm else Y k)
    have d0 : ∀ k, 3 * k / 3 = k ∧ (3 * k + 1) / 3 = k ∧ (3 * k + 2) / 3 = k := fun k => by omega
    have m0 : ∀ k, 3 * k % 3 = 0 ∧ (3 * k + 1) % 3 = 1 ∧ (3 * k + 2) % 3 = 2 := fun k => by omega
    refine ⟨fun k hk => ?_, fun p hp => ?_⟩
    · simp only [List.map_cons, List.mem_cons, not_or] at hk
      rw [List.foldl_cons, h1 k hk.2]
      simp only [rowV3, (d0 k).1, (d0 k).2.1, (d0 k).2.2, if_neg hk.1]
    · rw [List.foldl_cons]
      rcases List.mem_cons.1 hp with rfl | hp
      · rw [h1 _ hn.1]
        simp [rowV3, (d0 p.1).1, (d0 p.1).2.1, (d0 p.1).2.2, (m0 p.1).1, (m0 p.1).2.1, (m0 p.1).2.2, comp, V3.smul, div_eq_mul_inv]
      · exact h2 p hp

/-- **C90, averages on the faces.** The vector of each face has length one and points in the direction of the sum of the vectors at its corners; there is no result exactly if
such a sum is zero. -/
theorem C90_faces (m : Mesh) (hv : m.Valid) (ind fInd : ℕ → ℕ) (hf : m.getFaceIndices = .ok fInd) (basis : ℕ → V3 × V3) (Xt : ℕ → ℂ) :
    (m.unitFaceVectors ind fInd basis Xt = .ok none ↔ ∃ f, m.fLive f ∧ f < m.nFFill ∧
      ∑ h ∈ m.ints with m.heFace h = f, (tangent (basis (m.heVertex h)) (Xt (ind (m.heVertex h)))).toEigen = 0) ∧
    ((∀ f, m.fLive f → f < m.nFFill → ∑ h ∈ m.ints with m.heFace h = f, (tangent (basis (m.heVertex h)) (Xt (ind (m.heVertex h)))).toEigen ≠ 0) →
      ∃ Y, m.unitFaceVectors ind fInd basis Xt = .ok (some Y) ∧ ∀ f, m.fLive f → f < m.nFFill → (rowV3 Y (fInd f)).norm = 1 ∧ ∃ s : ℝ, 0 < s ∧
        ∑ h ∈ m.ints with m.heFace h = f, (tangent (basis (m.heVertex h)) (Xt (ind (m.heVertex h)))).toEigen = s • (rowV3 Y (fInd f)).toEigen) := by
  obtain ⟨vs, hs, is, es, fs, R⟩ := hv.ranges
  obtain ⟨F, hF⟩ := hv.faceLoops
  rw [R.if'.1] at hf
  injection hf with hf
  subst hf
  set C := fun f => cornerSum ind basis Xt ((F f).map m.heVertex) with hC
  have sumC : ∀ f ∈ m.faces, (C f).toEigen = ∑ h ∈ m.ints with m.heFace h = f, (tangent (basis (m.heVertex h)) (Xt (ind (m.heVertex h)))).toEigen := by
    intro f hf
    rw [← sum_of_nodup (hF.nodup f hf) (S := m.ints.filter (fun h => m.heFace h = f)) (fun h => by rw [hF.mem f hf, mem_filter]), hC]
    simp only [cornerSum_eq, List.map_map, Function.comp_def]
  have e : m.unitFaceVectors ind (number fs) basis Xt = .ok (if ∃ p ∈ fs.map (fun f => (number fs f, C f)), p.2.norm = 0 then none else
      some ((fs.map (fun f => (number fs f, C f))).foldl (fun Y p k => if k / 3 = p.1 then comp p.2 (k % 3) / p.2.norm else Y k) (fun _ => 0))) := by
    unfold unitFaceVectors
    have := Soup.mapM_ok (f := fun f => do
      let vs ← m.navFaceVertices f
      .ok (number fs f, cornerSum ind basis Xt vs)) (g := fun f => (number fs f, C f)) (l := fs) (fun f hf => by
        simp only [hF.verts f ((R.mf f).1 hf), bind, Except.bind]; rfl)
    simp only [R.f, bind, Except.bind] at this ⊢
    rw [this]
  have norm0 : ∀ u : V3, u.norm = 0 ↔ u.toEigen = 0 := by
    intro u
    constructor
    · intro h
      have := (Real.sqrt_eq_zero (add_nonneg (add_nonneg (mul_self_nonneg _) (mul_self_nonneg _)) (mul_self_nonneg _))).1 h
      have hx : u.x = 0 := by nlinarith [mul_self_nonneg u.x, mul_self_nonneg u.y, mul_self_nonneg u.z]
      have hy : u.y = 0 := by nlinarith [mul_self_nonneg u.x, mul_self_nonneg u.y, mul_self_nonneg u.z]
      have hz : u.z = 0 := by nlinarith [mul_self_nonneg u.x, mul_self_nonneg u.y, mul_self_nonneg u.z]
      funext c
      fin_cases c
      · exact hx
      · exact hy
      · exact hz
    · intro h
      have hx : u.x = 0 := congrFun h 0
      have hy : u.y = 0 := congrFun h 1
      have hz : u.z = 0 := congrFun h 2
      simp [V3.norm, hx, hy, hz]
  have exi : (∃ p ∈ fs.map (fun f => (number fs f, C f)), p.2.norm = 0) ↔ ∃ f, m.fLive f ∧ f < m.nFFill ∧
      ∑ h ∈ m.ints with m.heFace h = f, (tangent (basis (m.heVertex h)) (Xt (ind (m.heVertex h)))).toEigen = 0 := by
    constructor
    · rintro ⟨p, hp, h⟩
      obtain ⟨f, hf, rfl⟩ := List.mem_map.1 hp
      have hf' := (R.mf f).1 hf
      obtain ⟨q1, q2⟩ := mem_faces.1 hf'
      exact ⟨f, q1, q2, by rw [← sumC f hf']; exact (norm0 _).1 h⟩
    · rintro ⟨f, q1, q2, h⟩
      have hf' := mem_faces.2 ⟨q1, q2⟩
      refine ⟨_, List.mem_map.2 ⟨f, (R.mf f).2 hf', rfl⟩, (norm0 _).2 ?_⟩
      rw [← h, ← sumC f hf']
  refine ⟨?_, fun hne => ?_⟩
  · rw [e, ← exi]
    split
    · next h => exact ⟨fun _ => h, fun _ => rfl⟩
    · next h => exact ⟨fun q => (by injection q with q; cases q), fun q => absurd q h⟩
  · have nz : ¬ ∃ p ∈ fs.map (fun f => (number fs f, C f)), p.2.norm = 0 := by
      rw [exi]
      rintro ⟨f, q1, q2, h⟩
      exact hne f q1 q2 h
    refine ⟨_, by rw [e, if_neg nz], fun f q1 q2 => ?_⟩
    have hf' := mem_faces.2 ⟨q1, q2⟩
    have hfs := (R.mf f).2 hf'
    have nd : ((fs.map (fun f => (number fs f, C f))).map (·.1)).Nodup := by
      rw [List.map_map]
      refine List.Nodup.map_on (fun a ha b hb h => ?_) R.nf
      exact R.if'.2.inj (mem_faces.1 ((R.mf a).1 ha)) (mem_faces.1 ((R.mf b).1 hb)) h
    have rw' := (rowV3_fold _ nd (fun _ => 0)).2 (number fs f, C f) (List.mem_map.2 ⟨f, hfs, rfl⟩)
    have n0 : 0 < (C f).norm := lt_of_le_of_ne (Real.sqrt_nonneg _) (fun h => nz ⟨_, List.mem_map.2 ⟨f, hfs, rfl⟩, h.symm⟩)
    simp only at rw'
    rw [rw']
    refine ⟨?_, (C f).norm, n0, ?_⟩
    · have e2 : (C f).x * (C f).x + (C f).y * (C f).y + (C f).z * (C f).z = (C f).norm * (C f).norm :=
        (Real.mul_self_sqrt (add_nonneg (add_nonneg (mul_self_nonneg _) (mul_self_nonneg _)) (mul_self_nonneg _))).symm
      show Real.sqrt _ = 1
      rw [Real.sqrt_eq_one]
      simp only [V3.smul]
      field_simp
      linarith
    · rw [← sumC f hf', toEigen_smul, smul_smul, mul_one_div_cancel n0.ne', one_smul]

/-! ## Examples -/

/-- The function `x` on a triangle, with its left side as zero set. -/
example : ∃ (S : LinSolver ℝ) (d : ℕ → ℝ), lone.integrateZeroSet lonePos S 1 [[0, 2]] (fun k => if k = 0 then -1 else 0) = .ok d ∧ d 0 = 0 ∧ d 1 = 1 ∧ d 2 = 0 := by
  obtain ⟨S, hS⟩ := LinSolver.exists_exact ℝ
  obtain ⟨A, N, P, n⟩ := lone_planar
  have i0 : lone.getFaceIndices = .ok (number [0]) := rfl
  have l0 : lone.vLive 0 := by decide +kernel
  have l1 : lone.vLive 1 := by decide +kernel
  have l2 : lone.vLive 2 := by decide +kernel
  obtain ⟨d, d1, d2⟩ := C90_zero_set lone lonePos S 1 hS lone_valid one_pos P lone_joined [[0, 2]] (by simp [l0, l2]) ⟨[0, 2], by simp, by simp⟩
    (fun v => (lonePos v).x) (by simp [lonePos]) _ (lone_linear n _) _ i0 (fun k => if k = 0 then -1 else 0) (fun f _ h => by
      have : f = 0 := by
        have : lone.nFFill = 1 := rfl
        omega
      subst this
      have : number [0] 0 = 0 := rfl
      rw [this]
      simp [rowV3, lonePos, V3.smul])
  exact ⟨S, d, d1, by rw [d2 0 l0]; simp [lonePos], by rw [d2 1 l1]; simp [lonePos], by rw [d2 2 l2]; simp [lonePos]⟩

/-- The same function with its left side and its right corner as level sets: the zero lies on the average over the segments. -/
example : ∃ (S : LinSolver ℝ) (d : ℕ → ℝ), lone.integrateMultiple lonePos S 1 [[0, 2], [1]] (fun k => if k = 0 then -1 else 0) = .ok (some d) ∧ d 1 - d 0 = 1 := by
  obtain ⟨S, hS⟩ := LinSolver.exists_exact ℝ
  obtain ⟨A, N, P, n⟩ := lone_planar
  have i0 : lone.getFaceIndices = .ok (number [0]) := rfl
  have l0 : lone.vLive 0 := by decide +kernel
  have l1 : lone.vLive 1 := by decide +kernel
  have l2 : lone.vLive 2 := by decide +kernel
  obtain ⟨d, d1, d2, -⟩ := C90_multiple lone lonePos S 1 hS lone_valid one_pos P lone_joined [[0, 2], [1]] (by simp [l0, l1, l2]) (by simp)
    (by simp [curveLength, segments, lonePos, V3.sub, V3.norm])
    (fun v => (lonePos v).x) (by simp [lonePos]) _ (lone_linear n _) _ i0 (fun k => if k = 0 then -1 else 0) (fun f _ h => by
      have : f = 0 := by
        have : lone.nFFill = 1 := rfl
        omega
      subst this
      have : number [0] 0 = 0 := rfl
      rw [this]
      simp [rowV3, lonePos, V3.smul])
  exact ⟨S, d, d1, by rw [d2 1 0 l1 l0]; simp [lonePos]⟩

example : ∃ L ind, quad.polygonLaplacian unitPos 1 = .ok L ∧ quad.getVertexIndices = .ok ind := by
  obtain ⟨A, N, a, n, e⟩ := quad_geometry
  obtain ⟨L, ind, l1, l2, -⟩ := C90_multiple_singular quad unitPos 1 quad_valid one_pos a (quad_area e) [[0, 1], [2, 3]] (by
    have l : ∀ v < 4, quad.vLive v := by decide +kernel
    simp [l])
  exact ⟨L, ind, l1, l2⟩

/-- All vectors of a square point in the first direction. -/
example : ∃ Y, quad.unitFaceVectors id (number [0]) (fun _ => (⟨1, 0, 0⟩, ⟨0, 1, 0⟩)) (fun _ => 2) = .ok (some Y) := by
  have hi : quad.getFaceIndices = .ok (number [0]) := rfl
  obtain ⟨Y, h, -⟩ := (C90_faces quad quad_valid id _ hi (fun _ => (⟨1, 0, 0⟩, ⟨0, 1, 0⟩)) (fun _ => 2)).2 (fun f _ h => by
    have : f = 0 := by
      have : quad.nFFill = 1 := rfl
      omega
    subst this
    simp only [sum_const]
    intro q
    have := congrFun q 0
    simp [tangent, V3.toEigen, V3.add, V3.smul] at this
    exact absurd (this (by simp only [mem_ints]; decide +kernel : (0 : ℕ) ∈ quad.ints)) (by decide))
  exact ⟨Y, h⟩

end Mesh
end GC
