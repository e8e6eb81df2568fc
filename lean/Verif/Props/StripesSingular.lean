import Verif.Props.Stripes
import Mathlib.Data.List.Count

/-! # C96: isolines at the singular faces of stripe patterns -/

namespace GC

/-- The loop stays in range, removes the given number of different crossings, and leaves at most as many on the chosen edge as on the two others. -/
theorem removeLoop_ok (ij : ℕ) (vs : List (ℕ × ℕ)) (r : ℕ) (M : ℤ)
    (h : ((r : ℤ) ≤ M ∧ M ≤ vs.countP (fun v => v.1 = ij)) ∨ (M ≤ (vs.countP (fun v => v.1 = ij) : ℤ) - vs.countP (fun v => ¬ v.1 = ij) ∧ r ≤ vs.length)) :
    ∃ R, removeLoop ij vs r M = some R ∧ R.Sublist vs ∧ R.length = r ∧ (M ≤ r → (M - r) % 2 = 0 → M + r ≤ 2 * R.countP (fun v => v.1 = ij)) := by
  induction vs generalizing r M with
  | nil =>
    cases r with
    | zero => exact ⟨[], by simp [removeLoop], List.Sublist.refl _, rfl, fun h1 _ => by simpa using h1⟩
    | succ r => exfalso; simp at h; omega
  | cons v vs ih =>
    cases r with
    | zero => exact ⟨[], by simp [removeLoop], List.nil_sublist _, rfl, fun h1 _ => by simpa using h1⟩
    | succ r =>
      have len := List.length_eq_countP_add_countP (fun v : ℕ × ℕ => decide (v.1 = ij)) (l := vs)
      by_cases e : v.1 = ij
      · simp only [List.countP_cons, e, decide_true, if_true, not_true, decide_false, List.length_cons] at h
        obtain ⟨R, e1, e2, e3, e4⟩ := ih r (M - 1) (by simp at h ⊢; omega)
        refine ⟨v :: R, by simp [removeLoop, e, e1], e2.cons_cons v, by simp [e3], fun h1 h2 => ?_⟩
        have := e4 (by push_cast at h1; omega) (by push_cast at h2; omega)
        simp only [List.countP_cons, e, decide_true, if_true]
        push_cast
        omega
      · simp only [List.countP_cons, e, decide_false, List.length_cons, not_false_eq_true, decide_true, if_true] at h
        by_cases c : ((r + 1 : ℕ) : ℤ) ≤ M
        · obtain ⟨R, e1, e2, e3, e4⟩ := ih (r + 1) M (by simp at h ⊢; omega)
          exact ⟨R, by rw [removeLoop, if_neg e, if_pos c, e1], e2.cons v, e3, e4⟩
        · obtain ⟨R, e1, e2, e3, e4⟩ := ih r (M + 1) (by simp at h ⊢; omega)
          refine ⟨v :: R, by rw [removeLoop, if_neg e, if_neg c, e1]; rfl, e2.cons_cons v, by simp [e3], fun h1 h2 => ?_⟩
          have := e4 (by push_cast at c h1 h2; omega) (by push_cast at h2; omega)
          simp only [List.countP_cons, e, decide_false]
          push_cast
          simp
          omega

theorem keep_length (R : List (ℕ × ℕ)) (i : ℕ) (p : List ℕ) (hn : R.Nodup) (hr : ∀ j, (i, j) ∈ R → j < p.length) : (keepCrossings R i p).length + R.countP (fun v => v.1 = i) = p.length := by
  unfold keepCrossings
  rw [List.length_map]
  have e : ((List.range p.length).filter fun j => (i, j) ∈ R).length = R.countP (fun v => v.1 = i) := by
    rw [List.countP_eq_length_filter, ← List.length_map (f := Prod.snd) (as := R.filter _)]
    refine List.Perm.length_eq ((List.perm_ext_iff_of_nodup (List.nodup_range.filter _) ?_).2 (fun j => ?_))
    · refine (hn.filter _).map_on (fun x hx y hy e => ?_)
      have h1 := of_decide_eq_true (List.mem_filter.1 hx).2
      have h2 := of_decide_eq_true (List.mem_filter.1 hy).2
      exact Prod.ext (h1.trans h2.symm) e
    · rw [List.mem_filter, List.mem_range, decide_eq_true_iff, List.mem_map]
      constructor
      · rintro ⟨-, h⟩
        exact ⟨(i, j), List.mem_filter.2 ⟨h, by simp⟩, rfl⟩
      · rintro ⟨⟨a, b⟩, h, rfl⟩
        obtain ⟨h1, h2⟩ := List.mem_filter.1 h
        have h2 := of_decide_eq_true h2
        simp only at h2
        subst h2
        exact ⟨hr _ h1, h1⟩
  have := List.length_eq_length_filter_add (l := List.range p.length) (fun j => decide ((i, j) ∈ R))
  rw [List.length_range] at this
  rw [e] at this
  simp only [decide_not]
  omega

theorem keep_sublist (R : List (ℕ × ℕ)) (i : ℕ) (p : List ℕ) : (keepCrossings R i p).Sublist p := by
  have e : (List.range p.length).map (fun j => p.getD j 0) = p := by
    have := seg p 0 p.length (by omega)
    simpa using this
  conv_rhs => rw [← e]
  exact List.filter_sublist.map _

theorem count_three (R : List (ℕ × ℕ)) (h : ∀ v ∈ R, v.1 < 3) :
    R.length = R.countP (fun v => v.1 = 0) + R.countP (fun v => v.1 = 1) + R.countP (fun v => v.1 = 2) := by
  induction R with
  | nil => rfl
  | cons v R ih =>
    have := ih (fun x hx => h x (by simp [hx]))
    have := h v (by simp)
    simp only [List.countP_cons, List.length_cons, decide_eq_true_iff]
    split_ifs <;> omega

theorem crossings_length (a b : ℝ) : (crossingsModulo2Pi a b).length = (⌈a / (2 * Real.pi)⌉ - ⌈b / (2 * Real.pi)⌉).natAbs := by
  have pp : 0 < 2 * Real.pi := by have := Real.pi_pos; linarith
  have mono : ∀ x y : ℝ, x ≤ y → ⌈x / (2 * Real.pi)⌉ ≤ ⌈y / (2 * Real.pi)⌉ := fun x y h => Int.ceil_mono (div_le_div_of_nonneg_right h pp.le)
  rw [crossings_eq]
  split
  · rename_i h
    have := mono a b h.le
    rw [List.length_map, List.length_range]
    omega
  · rename_i h
    have := mono b a (not_lt.1 h)
    rw [List.length_map, List.length_reverse, List.length_range]
    omega

theorem left_ok {A B C s n0 n1 n2 S x y z : ℤ} (h0 : n0 = |A - B|) (h1 : n1 = |B - C|) (h2 : n2 = |C - (A + s)|) (hS : S = |s|) (h : S ≤ 2) (hx : 0 ≤ x) (hy : 0 ≤ y) (hz : 0 ≤ z) (x0 : x ≤ n0) (y1 : y ≤ n1) (z2 : z ≤ n2)
    (t : S = x + y + z)
    (q : (n1 ≥ n2 ∧ n1 ≥ n0 ∧ (n1 - n2 - n0) + S ≤ 2 * y) ∨ (n2 ≥ n1 ∧ n2 ≥ n0 ∧ (n2 - n0 - n1) + S ≤ 2 * z) ∨ (n0 ≥ n1 ∧ n0 ≥ n2 ∧ (n0 - n1 - n2) + S ≤ 2 * x)) :
    n0 - x ≤ (n1 - y) + (n2 - z) ∧ n1 - y ≤ (n2 - z) + (n0 - x) ∧ n2 - z ≤ (n0 - x) + (n1 - y) ∧ ((n0 - x) + (n1 - y) + (n2 - z)) % 2 = 0 := by
  rcases abs_cases (A - B) with ⟨a1, b1⟩ | ⟨a1, b1⟩ <;> rcases abs_cases (B - C) with ⟨a2, b2⟩ | ⟨a2, b2⟩ <;> rcases abs_cases (C - (A + s)) with ⟨a3, b3⟩ | ⟨a3, b3⟩ <;> rcases abs_cases s with ⟨a4, b4⟩ | ⟨a4, b4⟩ <;>
    rw [a1] at h0 <;> rw [a2] at h1 <;> rw [a3] at h2 <;> rw [a4] at hS <;> rcases q with ⟨q1, q2, q3⟩ | ⟨q1, q2, q3⟩ | ⟨q1, q2, q3⟩ <;> refine ⟨?_, ?_, ?_, ?_⟩ <;> omega

theorem start_ok {A B C s n0 n1 n2 S : ℤ} (h0 : n0 = |A - B|) (h1 : n1 = |B - C|) (h2 : n2 = |C - (A + s)|) (hS : S = |s|) :
    S ≤ n0 + n1 + n2 ∧ n1 - n2 - n0 ≤ S ∧ n2 - n0 - n1 ≤ S ∧ n0 - n1 - n2 ≤ S ∧ (n1 - n2 - n0 - S) % 2 = 0 ∧ (n2 - n0 - n1 - S) % 2 = 0 ∧ (n0 - n1 - n2 - S) % 2 = 0 := by
  rcases abs_cases (A - B) with ⟨a1, b1⟩ | ⟨a1, b1⟩ <;> rcases abs_cases (B - C) with ⟨a2, b2⟩ | ⟨a2, b2⟩ <;> rcases abs_cases (C - (A + s)) with ⟨a3, b3⟩ | ⟨a3, b3⟩ <;> rcases abs_cases s with ⟨a4, b4⟩ | ⟨a4, b4⟩ <;>
    rw [a1] at h0 <;> rw [a2] at h1 <;> rw [a3] at h2 <;> rw [a4] at hS <;> refine ⟨?_, ?_, ?_, ?_, ?_, ?_, ?_⟩ <;> omega

/-- **C96, singular faces.** In a face of stripe index at most two, whatever the order of the crossings in `values`, `removeCrossings` stays in range and removes as many crossings as the index says; what is left satisfies
the assertions of `matchCrossings` and is matched completely. This fails for larger indices, see `C96_fails`. -/
theorem C96_singular_partial (a b c : ℝ) (s : ℤ) (hs : s.natAbs ≤ 2) (p0 p1 p2 : List ℕ) (h0 : p0.length = (crossingsModulo2Pi a b).length) (h1 : p1.length = (crossingsModulo2Pi b c).length)
    (h2 : p2.length = (crossingsModulo2Pi c (a + 2 * s * Real.pi)).length) (values : List (ℕ × ℕ)) (hn : values.Nodup)
    (hv : ∀ i j, (i, j) ∈ values ↔ (i = 0 ∧ j < p0.length) ∨ (i = 1 ∧ j < p1.length) ∨ (i = 2 ∧ j < p2.length)) :
    ∃ q0 q1 q2 M, removeCrossings values s.natAbs p0 p1 p2 = some (q0, q1, q2) ∧ q0.Sublist p0 ∧ q1.Sublist p1 ∧ q2.Sublist p2 ∧
      q0.length + q1.length + q2.length + s.natAbs = p0.length + p1.length + p2.length ∧ matchCrossings q0 q1 q2 = some M ∧ (M.flatMap fun p => [p.1, p.2]).Perm (q0 ++ q1 ++ q2) := by
  have pp : 0 < 2 * Real.pi := by have := Real.pi_pos; linarith
  have ce : ⌈(a + 2 * s * Real.pi) / (2 * Real.pi)⌉ = ⌈a / (2 * Real.pi)⌉ + s := by
    rw [← Int.ceil_add_intCast]
    congr 1
    field_simp
  rw [crossings_length] at h0 h1 h2
  rw [ce] at h2
  have z0 : (p0.length : ℤ) = |⌈a / (2 * Real.pi)⌉ - ⌈b / (2 * Real.pi)⌉| := by rw [h0, Int.abs_eq_natAbs]
  have z1 : (p1.length : ℤ) = |⌈b / (2 * Real.pi)⌉ - ⌈c / (2 * Real.pi)⌉| := by rw [h1, Int.abs_eq_natAbs]
  have z2 : (p2.length : ℤ) = |⌈c / (2 * Real.pi)⌉ - (⌈a / (2 * Real.pi)⌉ + s)| := by rw [h2, Int.abs_eq_natAbs]
  obtain ⟨w1, w2, w3, w4, w5, w6, w7⟩ := start_ok z0 z1 z2 rfl
  rw [Int.abs_eq_natAbs] at w1 w2 w3 w4 w5 w6 w7
  clear h0 h1 h2
  have r0 : ∀ j, (0, j) ∈ values → j < p0.length := fun j h => by have := (hv 0 j).1 h; omega
  have r1 : ∀ j, (1, j) ∈ values → j < p1.length := fun j h => by have := (hv 1 j).1 h; omega
  have r2 : ∀ j, (2, j) ∈ values → j < p2.length := fun j h => by have := (hv 2 j).1 h; omega
  have em : ∀ i (p : List ℕ), (∀ j < p.length, (i, j) ∈ values) → (keepCrossings values i p).length = 0 := by
    intro i p h
    unfold keepCrossings
    rw [List.length_map, List.length_eq_zero_iff, List.filter_eq_nil_iff]
    intro j hj
    simp [h j (List.mem_range.1 hj)]
  have n0 := keep_length values 0 p0 hn r0
  have n1 := keep_length values 1 p1 hn r1
  have n2 := keep_length values 2 p2 hn r2
  rw [em 0 p0 (fun j h => (hv 0 j).2 (by omega))] at n0
  rw [em 1 p1 (fun j h => (hv 1 j).2 (by omega))] at n1
  rw [em 2 p2 (fun j h => (hv 2 j).2 (by omega))] at n2
  have three : ∀ v ∈ values, v.1 < 3 := fun v h => by have := (hv v.1 v.2).1 h; omega
  have tot := count_three values three
  have other : ∀ ij, values.length = values.countP (fun v => v.1 = ij) + values.countP (fun v => ¬ v.1 = ij) := fun ij => by
    have := List.length_eq_countP_add_countP (fun v : ℕ × ℕ => decide (v.1 = ij)) (l := values)
    simpa using this
  have fin : ∀ R : List (ℕ × ℕ), R.Sublist values → R.length = s.natAbs →
      ((p1.length ≥ p2.length ∧ p1.length ≥ p0.length ∧ ((p1.length : ℤ) - p2.length - p0.length) + s.natAbs ≤ 2 * R.countP (fun v => v.1 = 1)) ∨
       (¬ (p1.length ≥ p2.length ∧ p1.length ≥ p0.length) ∧ p2.length ≥ p1.length ∧ p2.length ≥ p0.length ∧ ((p2.length : ℤ) - p0.length - p1.length) + s.natAbs ≤ 2 * R.countP (fun v => v.1 = 2)) ∨
       (¬ (p1.length ≥ p2.length ∧ p1.length ≥ p0.length) ∧ ¬ (p2.length ≥ p1.length ∧ p2.length ≥ p0.length) ∧ ((p0.length : ℤ) - p1.length - p2.length) + s.natAbs ≤ 2 * R.countP (fun v => v.1 = 0))) →
      ∃ M, (keepCrossings R 0 p0).length + (keepCrossings R 1 p1).length + (keepCrossings R 2 p2).length + s.natAbs = p0.length + p1.length + p2.length ∧
        matchCrossings (keepCrossings R 0 p0) (keepCrossings R 1 p1) (keepCrossings R 2 p2) = some M ∧ (M.flatMap fun p => [p.1, p.2]).Perm (keepCrossings R 0 p0 ++ keepCrossings R 1 p1 ++ keepCrossings R 2 p2) := by
    intro R sub len h
    have nR := sub.nodup hn
    have k0 := keep_length R 0 p0 nR (fun j h => r0 j (sub.subset h))
    have k1 := keep_length R 1 p1 nR (fun j h => r1 j (sub.subset h))
    have k2 := keep_length R 2 p2 nR (fun j h => r2 j (sub.subset h))
    have t := count_three R (fun v h => three v (sub.subset h))
    have q := left_ok z0 z1 z2 rfl (by rw [Int.abs_eq_natAbs]; exact_mod_cast hs) (x := (R.countP (fun v => v.1 = 0) : ℕ)) (y := (R.countP (fun v => v.1 = 1) : ℕ)) (z := (R.countP (fun v => v.1 = 2) : ℕ))
      (by positivity) (by positivity) (by positivity) (by omega) (by omega) (by omega) (by rw [Int.abs_eq_natAbs, ← len, t]; push_cast; ring) (by
        rw [Int.abs_eq_natAbs]
        rcases h with ⟨g1, g2, g3⟩ | ⟨-, g1, g2, g3⟩ | ⟨g1, g2, g3⟩
        · exact .inl ⟨by exact_mod_cast g1, by exact_mod_cast g2, g3⟩
        · exact .inr (.inl ⟨by exact_mod_cast g1, by exact_mod_cast g2, g3⟩)
        · exact .inr (.inr ⟨by clear g3; omega, by clear g3; omega, g3⟩))
    clear h z0 z1 z2
    obtain ⟨q0, q1, q2, q3⟩ := q
    obtain ⟨M, e, pm⟩ := C95_match (keepCrossings R 0 p0) (keepCrossings R 1 p1) (keepCrossings R 2 p2) (by clear q1 q2 q3; omega) (by clear q0 q2 q3; omega) (by clear q0 q1 q3; omega) (by clear q0 q1 q2; omega)
    exact ⟨M, by clear q0 q1 q2 q3; omega, e, pm⟩
  unfold removeCrossings
  simp only
  have o0 := other 0
  have o1 := other 1
  have o2 := other 2
  split_ifs with g1 g2
  · obtain ⟨R, e1, e2, e3, e4⟩ := removeLoop_ok 1 values s.natAbs ((p1.length : ℤ) - p2.length - p0.length) (.inr ⟨by omega, by omega⟩)
    obtain ⟨M, f1, f2, f3⟩ := fin R e2 e3 (.inl ⟨by omega, by omega, e4 (by assumption) (by assumption)⟩)
    exact ⟨_, _, _, M, by rw [e1]; rfl, keep_sublist _ _ _, keep_sublist _ _ _, keep_sublist _ _ _, f1, f2, f3⟩
  · obtain ⟨R, e1, e2, e3, e4⟩ := removeLoop_ok 2 values s.natAbs ((p2.length : ℤ) - p0.length - p1.length) (.inr ⟨by omega, by omega⟩)
    obtain ⟨M, f1, f2, f3⟩ := fin R e2 e3 (.inr (.inl ⟨by omega, by omega, by omega, e4 (by assumption) (by assumption)⟩))
    exact ⟨_, _, _, M, by rw [e1]; rfl, keep_sublist _ _ _, keep_sublist _ _ _, keep_sublist _ _ _, f1, f2, f3⟩
  · obtain ⟨R, e1, e2, e3, e4⟩ := removeLoop_ok 0 values s.natAbs ((p0.length : ℤ) - p1.length - p2.length) (.inr ⟨by omega, by omega⟩)
    obtain ⟨M, f1, f2, f3⟩ := fin R e2 e3 (.inr (.inr ⟨by omega, by omega, e4 (by assumption) (by assumption)⟩))
    exact ⟨_, _, _, M, by rw [e1]; rfl, keep_sublist _ _ _, keep_sublist _ _ _, keep_sublist _ _ _, f1, f2, f3⟩

theorem ceil_pi (k : ℤ) : ⌈(2 * Real.pi * k) / (2 * Real.pi)⌉ = k := by
  rw [mul_div_cancel_left₀ _ (by have := Real.pi_pos; linarith), Int.ceil_intCast]

/-- **C96, larger indices.** In a face of stripe index three, `removeCrossings` can leave two crossings on one edge and none on the others; `matchCrossings` then reads before the start of an empty vector. -/
theorem C96_fails : ∃ (a b c : ℝ) (s : ℤ) (p0 p1 p2 : List ℕ) (values : List (ℕ × ℕ)) (q0 q1 q2 : List ℕ), p0.length = (crossingsModulo2Pi a b).length ∧ p1.length = (crossingsModulo2Pi b c).length ∧
    p2.length = (crossingsModulo2Pi c (a + 2 * s * Real.pi)).length ∧ values.Nodup ∧
    (∀ i j, (i, j) ∈ values ↔ (i = 0 ∧ j < p0.length) ∨ (i = 1 ∧ j < p1.length) ∨ (i = 2 ∧ j < p2.length)) ∧
    removeCrossings values s.natAbs p0 p1 p2 = some (q0, q1, q2) ∧ matchCrossings q0 q1 q2 = none := by
  refine ⟨2 * Real.pi * (1 : ℤ), 2 * Real.pi * (0 : ℤ), 2 * Real.pi * (2 : ℤ), 3, [0], [1, 2], [3, 4], [(1, 0), (1, 1), (0, 0), (2, 0), (2, 1)], [], [], [3, 4], ?_, ?_, ?_, by decide, fun i j => ?_, by decide, by decide⟩
  · rw [crossings_length, ceil_pi, ceil_pi]; rfl
  · rw [crossings_length, ceil_pi, ceil_pi]; rfl
  · rw [crossings_length, show (2 * Real.pi * ((1 : ℤ) : ℝ) + 2 * ((3 : ℤ) : ℝ) * Real.pi) = 2 * Real.pi * ((4 : ℤ) : ℝ) by push_cast; ring, ceil_pi, ceil_pi]; rfl
  · simp only [List.mem_cons, Prod.mk.injEq, List.not_mem_nil, or_false, List.length_cons, List.length_nil]
    omega

/-- A face of index one with the values 0, 2π and 4π at its corners: one, one and one crossings, of which one is removed. -/
example : ∃ (a b c : ℝ) (s : ℤ) (p0 p1 p2 : List ℕ) (values : List (ℕ × ℕ)), s = 1 ∧ p0.length = (crossingsModulo2Pi a b).length ∧ p1.length = (crossingsModulo2Pi b c).length ∧
    p2.length = (crossingsModulo2Pi c (a + 2 * s * Real.pi)).length ∧ values.Nodup ∧
    (∀ i j, (i, j) ∈ values ↔ (i = 0 ∧ j < p0.length) ∨ (i = 1 ∧ j < p1.length) ∨ (i = 2 ∧ j < p2.length)) ∧ removeCrossings values 1 p0 p1 p2 = some ([], [1], [2]) := by
  refine ⟨2 * Real.pi * (0 : ℤ), 2 * Real.pi * (1 : ℤ), 2 * Real.pi * (2 : ℤ), 1, [0], [1], [2], [(0, 0), (1, 0), (2, 0)], rfl, ?_, ?_, ?_, by decide, fun i j => ?_, by decide⟩
  · rw [crossings_length, ceil_pi, ceil_pi]; rfl
  · rw [crossings_length, ceil_pi, ceil_pi]; rfl
  · rw [crossings_length, show (2 * Real.pi * ((0 : ℤ) : ℝ) + 2 * ((1 : ℤ) : ℝ) * Real.pi) = 2 * Real.pi * ((1 : ℤ) : ℝ) by push_cast; ring, ceil_pi, ceil_pi]; rfl
  · simp only [List.mem_cons, Prod.mk.injEq, List.not_mem_nil, or_false, List.length_cons, List.length_nil]
    omega

end GC
