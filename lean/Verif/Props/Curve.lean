import Verif.Curve
import Mathlib.Analysis.Calculus.Deriv.Shift
import Mathlib.Tactic.Linarith
import Mathlib.Tactic.LinearCombination
import Mathlib.Tactic.Module
import Mathlib.Tactic.NormNum

/-! # Property C45: HermiteCurve

The full property, "for every `t` in `[0, length()]` the value is defined", is false: `length()` returns the number
of nodes `n` and not `n - 1` as its documentation says, so `value` reads past the nodes on all of `[n-1, n]`
(`C45_fails`). `C45_defined_partial` gives the exact set of parameters that work. -/

namespace GC
open Hermite
variable {T : Type} [AddCommGroup T] [Module ℝ T]

theorem getElem?_pair {l : List (T × T)} {i : ℕ} (h : i + 1 < l.length) :
    ∃ x y, l[i + 0]? = some x ∧ l[i + 1]? = some y := by
  refine ⟨l[i], l[i + 1], ?_, ?_⟩
  · rw [Nat.add_zero]; exact List.getElem?_eq_getElem (by omega)
  · exact List.getElem?_eq_getElem h

theorem deriv_seg {nodes : List (T × T)} {t : ℝ} {k i : ℕ} {x y : T × T} (h0 : (i : ℝ) ≤ t) (h1 : t < i + 1)
    (hx : nodes[i]? = some x) (hy : nodes[i + 1]? = some y) :
    derivative nodes t k = .ok (cubic x.1 x.2 y.1 y.2 k (t - i)) := by
  have hl : i + 1 < nodes.length := (List.getElem?_eq_some_iff.1 hy).1
  have ht0 : 0 ≤ t := le_trans (Nat.cast_nonneg i) h0
  have hf : ⌊t⌋₊ = i := (Nat.floor_eq_iff ht0).2 ⟨h0, h1⟩
  have hL : ¬ t > length nodes := by
    unfold length
    have : ((i + 1 : ℕ) : ℝ) ≤ nodes.length := by exact_mod_cast hl.le
    push_cast at this; linarith
  match nodes, hl, hx, hy, hL with
  | a :: b :: l, _, hx, hy, hL =>
    unfold derivative
    by_cases hk : k = 0
    · rw [if_pos hk, hk]
      unfold value
      simp only [if_neg (not_lt.2 ht0), if_neg hL, hf, Nat.add_zero, hx, hy]
    · rw [if_neg hk]
      simp only [if_neg (not_lt.2 ht0), if_neg hL, hf, Nat.add_zero, hx, hy]
  | [a], hl, _, _, _ => simp at hl

/-- **C45 (refutation).** For every curve with at least two nodes and every `t` from the last node's parameter
`n - 1` to the number of nodes `n`, evaluation reads a node that does not exist; the last node itself is never reached. -/
theorem C45_fails (nodes : List (T × T)) (h2 : 2 ≤ nodes.length) (t : ℝ) (h0 : ((nodes.length - 1 : ℕ) : ℝ) ≤ t)
    (h1 : t ≤ (nodes.length : ℝ)) (k : ℕ) : value nodes t = .error .ub ∧ derivative nodes t k = .error .ub := by
  have ht0 : 0 ≤ t := le_trans (Nat.cast_nonneg _) h0
  replace h1 : t ≤ length nodes := h1
  have hi : nodes[⌊t⌋₊ + 1]? = none := by
    apply List.getElem?_eq_none
    have := Nat.le_floor h0
    omega
  have hv : value nodes t = .error .ub := by
    match nodes, h2, h1, hi with
    | a :: b :: l, _, h1, hi =>
      unfold value
      simp only [if_neg (not_lt.2 ht0), if_neg (not_lt.2 h1), hi]
      split <;> simp_all
  refine ⟨hv, ?_⟩
  unfold derivative
  by_cases hk : k = 0
  · rw [if_pos hk, hv]
  · rw [if_neg hk]
    match nodes, h2, h1, hi with
    | a :: b :: l, _, h1, hi =>
      simp only [if_neg (not_lt.2 ht0), if_neg (not_lt.2 h1), hi]
      split <;> simp_all

example : value [((1 : ℝ), (2 : ℝ)), (3, 4), (5, 6)] 2 = .error .ub :=
  (C45_fails _ (by simp) 2 (by norm_num) (by norm_num) 0).1

/-- **C45 (what is defined).** Evaluation is defined exactly outside `[n-1, n]`, or when there are fewer than two
nodes. Missing from the full property: that nothing is excluded. -/
theorem C45_defined_partial (nodes : List (T × T)) (t : ℝ) :
    (∃ x, value nodes t = .ok x) ↔ ¬ (2 ≤ nodes.length ∧ ((nodes.length - 1 : ℕ) : ℝ) ≤ t ∧ t ≤ length nodes) := by
  constructor
  · rintro ⟨x, hx⟩ ⟨h2, h0, h1⟩
    rw [(C45_fails nodes h2 t h0 h1 0).1] at hx; exact absurd hx (by simp)
  · intro h
    match nodes with
    | [] => exact ⟨_, rfl⟩
    | [a] => exact ⟨_, rfl⟩
    | a :: b :: l =>
      by_cases hneg : t < 0
      · exact ⟨a.1 + t • a.2, by unfold value; simp only [if_pos hneg]⟩
      by_cases hgt : t > length (a :: b :: l)
      · unfold value
        simp only [if_neg hneg, if_pos hgt]
        rw [List.getElem?_eq_getElem (by simp)]
        exact ⟨_, rfl⟩
      · have hlt : t < ((a :: b :: l).length - 1 : ℕ) := by
          by_contra hc
          exact h ⟨by simp, not_lt.1 hc, not_lt.1 hgt⟩
        have hf := (Nat.floor_lt (not_lt.1 hneg)).2 hlt
        obtain ⟨x, y, hx, hy⟩ := getElem?_pair (l := a :: b :: l) (i := ⌊t⌋₊) (by omega)
        exact ⟨cubic x.1 x.2 y.1 y.2 0 (t - ⌊t⌋₊), by unfold value; simp only [if_neg hneg, if_neg hgt, hx, hy]⟩

/-- **C45 (interpolation).** At every integer parameter except the last the curve passes through the node with its
tangent. Missing from the full property: the last node. -/
theorem C45_interpolates_partial (nodes : List (T × T)) (i : ℕ) (p d : T) (hi : i + 1 < nodes.length)
    (hn : nodes[i]? = some (p, d)) : value nodes i = .ok p ∧ derivative nodes i 1 = .ok d := by
  obtain ⟨x, y, hx, hy⟩ := getElem?_pair hi
  rw [Nat.add_zero, hn] at hx; injection hx with hx
  have h := fun k => deriv_seg (t := (i : ℝ)) (k := k) le_rfl (by linarith) hn hy
  have h0 := h 0
  have h1 := h 1
  simp only [sub_self, cubic] at h0 h1
  refine ⟨?_, ?_⟩
  · have : derivative nodes i 0 = value nodes i := by unfold derivative; rw [if_pos rfl]
    rw [← this, h0]; simp
  · rw [h1]; simp

example : value [((1 : ℝ), (2 : ℝ)), (3, 4), (5, 6)] (1 : ℕ) = .ok 3 :=
  (C45_interpolates_partial _ 1 3 4 (by simp) rfl).1

/-- The value returned, where defined. -/
noncomputable def Hermite.out (r : Res T) : T := match r with | .ok x => x | .error _ => 0

section Smooth
variable {E : Type} [NormedAddCommGroup E] [NormedSpace ℝ E]

theorem cubic_deriv (p0 m0 p1 m1 : E) (k : ℕ) (u : ℝ) : HasDerivAt (cubic p0 m0 p1 m1 k) (cubic p0 m0 p1 m1 (k + 1) u) u := by
  have h1 := hasDerivAt_id u
  have h2 : HasDerivAt (fun u : ℝ => u * u) (2 * u) u := by
    exact (h1.mul h1).congr_deriv (by simp only [id]; ring)
  have h3 : HasDerivAt (fun u : ℝ => u * u * u) (3 * (u * u)) u := by
    exact (h2.mul h1).congr_deriv (by simp only [id]; ring)
  have hc : ∀ c : ℝ, HasDerivAt (fun _ : ℝ => c) 0 u := fun c => hasDerivAt_const u c
  match k with
  | 0 =>
    have a := ((h3.const_mul 2).sub (h2.const_mul 3)).add (hc 1)
    have b := (h3.sub (h2.const_mul 2)).add h1
    have c := (h2.const_mul 3).sub (h3.const_mul 2)
    have d := h3.sub h2
    have := (((a.smul_const p0).add (b.smul_const m0)).add (c.smul_const p1)).add (d.smul_const m1)
    exact this.congr_deriv (by simp only [cubic]; module)
  | 1 =>
    have a := (h2.const_mul 6).sub (h1.const_mul 6)
    have b := ((h2.const_mul 3).sub (h1.const_mul 4)).add (hc 1)
    have c := (h1.const_mul 6).sub (h2.const_mul 6)
    have d := (h2.const_mul 3).sub (h1.const_mul 2)
    have := (((a.smul_const p0).add (b.smul_const m0)).add (c.smul_const p1)).add (d.smul_const m1)
    exact this.congr_deriv (by simp only [cubic]; module)
  | 2 =>
    have a := (h1.const_mul 12).sub (hc 6)
    have b := (h1.const_mul 6).sub (hc 4)
    have c := (hc 6).sub (h1.const_mul 12)
    have d := (h1.const_mul 6).sub (hc 2)
    have := (((a.smul_const p0).add (b.smul_const m0)).add (c.smul_const p1)).add (d.smul_const m1)
    exact this.congr_deriv (by simp only [cubic]; module)
  | 3 => exact hasDerivAt_const u _
  | k + 4 => exact hasDerivAt_const u _

theorem cubic_shift (p0 m0 p1 m1 : E) (k : ℕ) (i t : ℝ) :
    HasDerivAt (fun s => cubic p0 m0 p1 m1 k (s - i)) (cubic p0 m0 p1 m1 (k + 1) (t - i)) t := by
  have h := (cubic_deriv p0 m0 p1 m1 k (t - i))
  exact h.comp_sub_const t i

/-- **C45 (derivatives inside a segment).** Between nodes `derivative t (k+1)` is the derivative of `derivative t k`,
for every `k` (`derivative t 0` is `value t`). -/
theorem C45_derivative_partial (nodes : List (E × E)) (i : ℕ) (hi : i + 1 < nodes.length) (t : ℝ) (h0 : (i : ℝ) < t)
    (h1 : t < i + 1) (k : ℕ) :
    ∃ d, derivative nodes t (k + 1) = .ok d ∧ HasDerivAt (fun s => out (derivative nodes s k)) d t := by
  obtain ⟨x, y, hx, hy⟩ := getElem?_pair hi
  rw [Nat.add_zero] at hx
  refine ⟨_, deriv_seg h0.le h1 hx hy, ?_⟩
  refine (cubic_shift x.1 x.2 y.1 y.2 k i t).congr_of_eventuallyEq ?_
  filter_upwards [Ioo_mem_nhds h0 h1] with s hs
  rw [deriv_seg hs.1.le hs.2 hx hy]; rfl

/-- **C45 (smoothness).** The curve is continuously differentiable: also at the nodes (and on the affine extension
to the left of the first node) `derivative t 1` is the derivative of `value`. Missing from the full property: the last node. -/
theorem C45_C1_partial (nodes : List (E × E)) (h2 : 2 ≤ nodes.length) (t : ℝ) (ht : t < (nodes.length - 1 : ℕ)) :
    ∃ d, derivative nodes t 1 = .ok d ∧ HasDerivAt (fun s => out (value nodes s)) d t := by
  have dv : ∀ s, value nodes s = derivative nodes s 0 := by intro s; unfold derivative; rw [if_pos rfl]
  -- left of the first node
  have neg : ∀ a b l, nodes = a :: b :: l → ∀ s : ℝ, s < 0 → value nodes s = .ok (a.1 + s • a.2) ∧ derivative nodes s 1 = .ok a.2 := by
    rintro a b l rfl s hs
    unfold derivative value
    simp only [if_pos hs, one_ne_zero, if_false, if_true]; exact ⟨trivial, trivial⟩
  obtain ⟨a, b, l, hab⟩ : ∃ a b l, nodes = a :: b :: l := by
    match nodes, h2 with
    | a :: b :: l, _ => exact ⟨a, b, l, rfl⟩
  have affine : ∀ s : ℝ, HasDerivAt (fun s : ℝ => a.1 + s • a.2) a.2 s := by
    intro s
    have := ((hasDerivAt_id s).smul_const a.2).const_add a.1
    simpa using this
  rcases lt_trichotomy t 0 with hneg | hz | hpos
  · refine ⟨a.2, (neg a b l hab t hneg).2, (affine t).congr_of_eventuallyEq ?_⟩
    filter_upwards [Iio_mem_nhds hneg] with s hs
    rw [(neg a b l hab s hs).1]; rfl
  · -- the first node
    subst hz
    obtain ⟨x, y, hx, hy⟩ := getElem?_pair (l := nodes) (i := 0) (by omega)
    rw [Nat.add_zero] at hx
    have hxa : x = a := by rw [hab] at hx; simpa using hx.symm
    have hseg := fun (k : ℕ) (s : ℝ) (h0 : 0 ≤ s) (h1 : s < 1) =>
      deriv_seg (nodes := nodes) (t := s) (k := k) (i := 0) (by simpa using h0) (by simpa using h1) hx hy
    simp only [Nat.cast_zero, sub_zero] at hseg
    refine ⟨_, hseg 1 0 le_rfl one_pos, ?_⟩
    have hd : cubic x.1 x.2 y.1 y.2 1 0 = a.2 := by rw [hxa]; simp [cubic]
    have hv : cubic x.1 x.2 y.1 y.2 0 0 = a.1 := by rw [hxa]; simp [cubic]
    rw [hd, ← hasDerivWithinAt_univ, ← Set.Iic_union_Ici (a := (0 : ℝ))]
    refine HasDerivWithinAt.union ?_ ?_
    · refine (affine 0).hasDerivWithinAt.congr (fun s hs => ?_) ?_
      · rcases eq_or_lt_of_le (Set.mem_Iic.1 hs) with h | h
        · subst h; rw [dv, hseg 0 0 le_rfl one_pos]; show cubic _ _ _ _ 0 0 = _; rw [hv]; simp
        · rw [(neg a b l hab s h).1]; rfl
      · rw [dv, hseg 0 0 le_rfl one_pos]; show cubic _ _ _ _ 0 0 = _; rw [hv]; simp
    · have := (cubic_deriv x.1 x.2 y.1 y.2 0 0)
      rw [zero_add, hd] at this
      refine this.hasDerivWithinAt.congr_of_eventuallyEq ?_ ?_
      · filter_upwards [Ico_mem_nhdsGE (show (0 : ℝ) < 1 by norm_num)] with s hs
        rw [dv, hseg 0 s hs.1 hs.2]; rfl
      · rw [dv, hseg 0 0 le_rfl one_pos]; rfl
  · -- t > 0: inside a segment or at an inner node
    have hf0 := Nat.floor_le hpos.le
    have hf1 := Nat.lt_floor_add_one t
    have hfl := (Nat.floor_lt hpos.le).2 ht
    generalize ⌊t⌋₊ = i at *
    rcases eq_or_lt_of_le hf0 with h | h
    · obtain ⟨j, rfl⟩ : ∃ j, i = j + 1 := by
        cases i with
        | zero => exfalso; rw [Nat.cast_zero] at h; linarith
        | succ j => exact ⟨j, rfl⟩
      obtain ⟨x, y, hx, hy⟩ := getElem?_pair (l := nodes) (i := j) (by omega)
      obtain ⟨y', z, hy', hz⟩ := getElem?_pair (l := nodes) (i := j + 1) (by omega)
      rw [Nat.add_zero] at hx hy'
      rw [hy] at hy'; injection hy' with hy'; subst hy'
      have hj : t = j + 1 := by rw [← h]; push_cast; ring
      have s1 := fun (k : ℕ) (s : ℝ) (h0 : (j : ℝ) ≤ s) (h1 : s < j + 1) => deriv_seg (k := k) h0 h1 hx hy
      have s2 := fun (k : ℕ) (s : ℝ) (h0 : (j : ℝ) + 1 ≤ s) (h1 : s < j + 1 + 1) =>
        deriv_seg (t := s) (k := k) (i := j + 1) (by push_cast; exact h0) (by push_cast; exact h1) hy hz
      subst hj
      refine ⟨_, s2 1 _ le_rfl (by linarith), ?_⟩
      have hd : cubic y.1 y.2 z.1 z.2 1 ((j : ℝ) + 1 - (j + 1 : ℕ)) = y.2 := by
        push_cast; rw [sub_self]; simp [cubic]
      have hv : cubic y.1 y.2 z.1 z.2 0 ((j : ℝ) + 1 - (j + 1 : ℕ)) = y.1 := by
        push_cast; rw [sub_self]; simp [cubic]
      have hd' : cubic x.1 x.2 y.1 y.2 1 ((j : ℝ) + 1 - j) = y.2 := by
        rw [add_sub_cancel_left]; simp only [cubic]; norm_num
      have hv' : cubic x.1 x.2 y.1 y.2 0 ((j : ℝ) + 1 - j) = y.1 := by
        rw [add_sub_cancel_left]; simp only [cubic]; norm_num
      rw [hd, ← hasDerivWithinAt_univ, ← Set.Iic_union_Ici (a := (j : ℝ) + 1)]
      have hval : out (value nodes ((j : ℝ) + 1)) = y.1 := by
        rw [dv, s2 0 _ le_rfl (by linarith), hv]; rfl
      refine HasDerivWithinAt.union ?_ ?_
      · have := (cubic_shift x.1 x.2 y.1 y.2 0 j (j + 1))
        rw [zero_add, hd'] at this
        refine this.hasDerivWithinAt.congr_of_eventuallyEq ?_ ?_
        · filter_upwards [Ioc_mem_nhdsLE (show (j : ℝ) < j + 1 by linarith)] with s hs
          rcases eq_or_lt_of_le hs.2 with e | e
          · subst e; rw [hval, hv']
          · rw [dv, s1 0 s hs.1.le e]; rfl
        · rw [hval, hv']
      · have := (cubic_shift y.1 y.2 z.1 z.2 0 ((j + 1 : ℕ) : ℝ) ((j : ℝ) + 1))
        rw [zero_add, hd] at this
        refine this.hasDerivWithinAt.congr_of_eventuallyEq ?_ ?_
        · filter_upwards [Ico_mem_nhdsGE (show (j : ℝ) + 1 < j + 1 + 1 by linarith)] with s hs
          rw [dv, s2 0 s hs.1 hs.2]; rfl
        · rw [hval, hv]
    · obtain ⟨d, h1, h3⟩ := C45_derivative_partial nodes i (by omega) t h hf1 0
      refine ⟨d, h1, ?_⟩
      simpa only [dv] using h3

example : ∃ d, derivative [((1 : ℝ), (2 : ℝ)), (3, 4), (5, 6)] 1 1 = .ok d ∧
    HasDerivAt (fun s => out (value [((1 : ℝ), (2 : ℝ)), (3, 4), (5, 6)] s)) d 1 :=
  C45_C1_partial _ (by simp) 1 (by norm_num)

end Smooth
end GC
