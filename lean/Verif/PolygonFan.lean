import Verif.PolygonTriangle
import Mathlib.Analysis.InnerProductSpace.PiL2
import Mathlib.Analysis.InnerProductSpace.Projection.Submodule
import Mathlib.Analysis.Real.Sqrt

/-! # The operators of one polygon with a virtual vertex (Bunge et al.) -/

namespace GC
open Matrix
open Classical

namespace Poly
variable {n : ℕ} {p : Matrix (Fin n) (Fin 3) ℝ} {w : Fin n → ℝ}

/-! ## Sums of the accumulated matrices -/

theorem bumpV_apply {ι : Type} (l : ι → ℝ) (a j : ι) (t : ℝ) : bumpV l a t j = l j + if j = a then t else 0 := by
  unfold bumpV
  by_cases h : j = a
  · subst h; rw [Function.update_self, if_pos rfl]
  · rw [Function.update_of_ne h, if_neg h, add_zero]

theorem bumpM_apply {ι : Type} (M : ι → ι → ℝ) (a b i j : ι) (t : ℝ) : bumpM M a b t i j = M i j + if i = a then if j = b then t else 0 else 0 := by
  unfold bumpM
  by_cases h : i = a
  · subst h
    rw [Function.update_self, if_pos rfl]
    by_cases h : j = b
    · subst h; rw [Function.update_self, if_pos rfl]
    · rw [Function.update_of_ne h, if_neg h, add_zero]
  · rw [Function.update_of_ne h, if_neg h, add_zero]

/-- The bilinear form of the matrix and the vector of the loops, with the values at the virtual vertex. -/
noncomputable def bil (s : (Fin n → Fin n → ℝ) × (Option (Fin n) → ℝ)) (x y : Fin n → ℝ) (X Y : ℝ) : ℝ :=
  ∑ i, ∑ j, x i * s.1 i j * y j + (X * ∑ j, s.2 (some j) * y j + Y * ∑ j, s.2 (some j) * x j + X * Y * s.2 none)

theorem bil_bumpM (M : Fin n → Fin n → ℝ) (l : Option (Fin n) → ℝ) (a b : Fin n) (t : ℝ) (x y : Fin n → ℝ) (X Y : ℝ) :
    bil (bumpM M a b t, l) x y X Y = bil (M, l) x y X Y + x a * t * y b := by
  unfold bil
  have : ∑ i, ∑ j, x i * bumpM M a b t i j * y j = ∑ i, ∑ j, x i * M i j * y j + x a * t * y b := by
    have e : ∀ i j, x i * bumpM M a b t i j * y j = x i * M i j * y j + if i = a then if j = b then x a * t * y b else 0 else 0 := by
      intro i j
      rw [bumpM_apply]
      by_cases hi : i = a
      · by_cases hj : j = b
        · simp only [hi, hj, if_true]; ring
        · simp only [hi, hj, if_true, if_false]; ring
      · simp only [hi, if_false]; ring
    simp only [e, Finset.sum_add_distrib]
    simp
  simp only [this]
  ring

theorem bil_bumpV (M : Fin n → Fin n → ℝ) (l : Option (Fin n) → ℝ) (a : Fin n) (t : ℝ) (x y : Fin n → ℝ) (X Y : ℝ) :
    bil (M, bumpV l (some a) t) x y X Y = bil (M, l) x y X Y + t * (X * y a + Y * x a) := by
  unfold bil
  have key : ∀ z : Fin n → ℝ, ∑ j, bumpV l (some a) t (some j) * z j = ∑ j, l (some j) * z j + t * z a := by
    intro z
    have e : ∀ j, bumpV l (some a) t (some j) * z j = l (some j) * z j + if j = a then t * z a else 0 := by
      intro j
      rw [bumpV_apply]
      by_cases hj : j = a
      · simp only [hj, if_true]; ring
      · simp only [hj, Option.some.injEq, if_false]; ring
    simp only [e, Finset.sum_add_distrib]
    simp
  have e0 : bumpV l (some a) t none = l none := by rw [bumpV_apply]; simp
  simp only [key, e0]
  ring

theorem bil_bumpN (M : Fin n → Fin n → ℝ) (l : Option (Fin n) → ℝ) (t : ℝ) (x y : Fin n → ℝ) (X Y : ℝ) :
    bil (M, bumpV l none t) x y X Y = bil (M, l) x y X Y + t * (X * Y) := by
  unfold bil
  have e0 : bumpV l none t none = l none + t := by rw [bumpV_apply]; simp
  have e1 : ∀ j, bumpV l none t (some j) = l (some j) := fun j => by rw [bumpV_apply]; simp
  simp only [e0, e1]
  ring

/-- The last loops interpolate the value at the virtual vertex. -/
theorem prolong_form (M : Fin n → Fin n → ℝ) (l : Option (Fin n) → ℝ) (x y : Fin n → ℝ) :
    x ⬝ᵥ (prolong w M l *ᵥ y) = bil (M, l) x y (w ⬝ᵥ x) (w ⬝ᵥ y) := by
  unfold bil prolong
  simp only [dotProduct, mulVec, Matrix.of_apply]
  have e : ∀ i, x i * ∑ j, (M i j + (w i * l (some j) + w j * l (some i) + w i * w j * l none)) * y j =
      ∑ j, x i * M i j * y j + (w i * x i * ∑ j, l (some j) * y j + l (some i) * x i * ∑ j, w j * y j + w i * x i * ((∑ j, w j * y j) * l none)) := by
    intro i
    rw [Finset.sum_mul, Finset.mul_sum, Finset.mul_sum, Finset.mul_sum, Finset.mul_sum, ← Finset.sum_add_distrib, ← Finset.sum_add_distrib,
      ← Finset.sum_add_distrib]
    refine Finset.sum_congr rfl (fun j _ => ?_)
    ring
  simp only [e, Finset.sum_add_distrib, ← Finset.sum_mul]
  ring

/-! ## The fan -/

/-- Corner `i` of the polygon seen from the virtual vertex. -/
noncomputable def spoke (p : Matrix (Fin n) (Fin 3) ℝ) (w : Fin n → ℝ) (i : Fin n) : Fin 3 → ℝ := p i - pᵀ *ᵥ w

/-- The triangle at side `i` of the fan: its cross product, twice the area. -/
noncomputable def fanCross (p : Matrix (Fin n) (Fin 3) ℝ) (w : Fin n → ℝ) (i : Fin n) : Fin 3 → ℝ := spoke p w i ⨯₃ spoke p w (cyc i)

/-- Twice the area of the triangle at side `i`. -/
noncomputable def fan2 (p : Matrix (Fin n) (Fin 3) ℝ) (w : Fin n → ℝ) (i : Fin n) : ℝ := Real.sqrt (fanCross p w i ⬝ᵥ fanCross p w i)

theorem fan2_nonneg (i : Fin n) : 0 ≤ fan2 p w i := Real.sqrt_nonneg _

theorem dot_self_nonneg (u : Fin 3 → ℝ) : 0 ≤ u ⬝ᵥ u := self_nonneg u

theorem cross_sq (u v : Fin 3 → ℝ) : (u ⨯₃ v) ⬝ᵥ (u ⨯₃ v) = (u ⬝ᵥ u) * (v ⬝ᵥ v) - (u ⬝ᵥ v) ^ 2 := by
  rw [cross_dot_cross, dotProduct_comm v u]
  ring

theorem fanSq_eq (i : Fin n) : fanSq p w i = ![spoke p w (cyc i) ⬝ᵥ spoke p w (cyc i), spoke p w i ⬝ᵥ spoke p w i,
    (spoke p w i - spoke p w (cyc i)) ⬝ᵥ (spoke p w i - spoke p w (cyc i))] := by
  unfold fanSq spoke
  rw [sub_sub_sub_cancel_right]

/-- Heron's formula. -/
theorem fanRoot_eq (i : Fin n) : fanRoot p w i = 2 * fan2 p w i := by
  unfold fanRoot fan2 fanCross
  rw [fanSq_eq]
  set u := spoke p w i
  set v := spoke p w (cyc i)
  simp only [Matrix.cons_val_zero, Matrix.cons_val_one, Matrix.cons_val_two, Matrix.head_cons, Matrix.tail_cons, Matrix.cons_val]
  have a := Real.sq_sqrt (dot_self_nonneg v)
  have b := Real.sq_sqrt (dot_self_nonneg u)
  have c := Real.sq_sqrt (dot_self_nonneg (u - v))
  set a' := Real.sqrt (v ⬝ᵥ v)
  set b' := Real.sqrt (u ⬝ᵥ u)
  set c' := Real.sqrt ((u - v) ⬝ᵥ (u - v))
  have d : c' ^ 2 = b' ^ 2 + a' ^ 2 - 2 * (u ⬝ᵥ v) := by
    rw [a, b, c, sub_dotProduct, dotProduct_sub, dotProduct_sub, dotProduct_comm v u]
    ring
  have e : (a' + (b' + c')) * (c' - (a' - b')) * (c' + (a' - b')) * (a' + (b' - c')) = 2 ^ 2 * ((u ⨯₃ v) ⬝ᵥ (u ⨯₃ v)) := by
    rw [cross_sq, ← a, ← b]
    have : (a' + (b' + c')) * (c' - (a' - b')) * (c' + (a' - b')) * (a' + (b' - c')) = 4 * (a' ^ 2 * b' ^ 2) - (a' ^ 2 + b' ^ 2 - c' ^ 2) ^ 2 := by ring
    rw [this, d]
    ring
  rw [e, Real.sqrt_mul (by norm_num), Real.sqrt_sq (by norm_num)]

/-! ## Stiffness -/

/-- The energy of one triangle: `(a u - b v)` with the differences `a`, `b` to the virtual vertex. -/
noncomputable def slope (p : Matrix (Fin n) (Fin 3) ℝ) (w x : Fin n → ℝ) (i : Fin n) : Fin 3 → ℝ :=
  (x (cyc i) - w ⬝ᵥ x) • spoke p w i - (x i - w ⬝ᵥ x) • spoke p w (cyc i)

theorem stiffStep_bil (s : (Fin n → Fin n → ℝ) × (Option (Fin n) → ℝ)) (i : Fin n) (x y : Fin n → ℝ) :
    bil (stiffStep p w s i) x y (w ⬝ᵥ x) (w ⬝ᵥ y) = bil s x y (w ⬝ᵥ x) (w ⬝ᵥ y) +
      if fan2 p w i > 1e-7 then slope p w x i ⬝ᵥ slope p w y i / (2 * fan2 p w i) else 0 := by
  unfold stiffStep
  have ar : 0.5 * fanRoot p w i = fan2 p w i := by rw [fanRoot_eq]; ring
  simp only [ar]
  by_cases h : fan2 p w i > 1e-7
  · rw [if_pos h, if_pos h]
    rw [bil_bumpN, bil_bumpV, bil_bumpV, bil_bumpM, bil_bumpM, bil_bumpM, bil_bumpM, bil_bumpM, bil_bumpM, fanSq_eq]
    unfold slope
    set u := spoke p w i
    set v := spoke p w (cyc i)
    set A := fan2 p w i
    have hA : A ≠ 0 := by
      have : (0 : ℝ) < 1e-7 := by norm_num
      linarith
    simp only [Matrix.cons_val_zero, Matrix.cons_val_one, Matrix.cons_val_two, Matrix.head_cons, Matrix.tail_cons, Matrix.cons_val]
    set X := w ⬝ᵥ x
    set Y := w ⬝ᵥ y
    simp only [sub_dotProduct, dotProduct_sub, smul_dotProduct, dotProduct_smul, smul_eq_mul, dotProduct_comm v u, Prod.mk.eta]
    field_simp
    ring
  · rw [if_neg h, if_neg h, add_zero]

theorem fold_bil {f : (Fin n → Fin n → ℝ) × (Option (Fin n) → ℝ) → Fin n → (Fin n → Fin n → ℝ) × (Option (Fin n) → ℝ)} {g : Fin n → ℝ} {x y : Fin n → ℝ}
    {X Y : ℝ} (h : ∀ s i, bil (f s i) x y X Y = bil s x y X Y + g i) :
    bil ((List.finRange n).foldl f (fun _ _ => 0, fun _ => 0)) x y X Y = ∑ i, g i := by
  have key : ∀ (l : List (Fin n)) s, bil (l.foldl f s) x y X Y = bil s x y X Y + (l.map g).sum := by
    intro l
    induction l with
    | nil => intro s; simp
    | cons a l ih => intro s; rw [List.foldl_cons, ih, h, List.map_cons, List.sum_cons]; ring
  rw [key]
  have : bil (fun _ _ => 0, fun _ => 0) x y X Y = 0 := by unfold bil; simp
  rw [this, zero_add, ← Fin.sum_univ_def]

theorem simpleStiffness_form (x y : Fin n → ℝ) : x ⬝ᵥ (simpleStiffness p w *ᵥ y) =
    ∑ i, if fan2 p w i > 1e-7 then slope p w x i ⬝ᵥ slope p w y i / (2 * fan2 p w i) else 0 := by
  unfold simpleStiffness
  rw [prolong_form]
  exact fold_bil (fun s i => stiffStep_bil s i x y)

/-! ## Mass -/

/-- The product of two linear functions, integrated over a triangle of area one. -/
noncomputable def blend (w x y : Fin n → ℝ) (i : Fin n) : ℝ :=
  (x i * y i + x (cyc i) * y (cyc i) + (w ⬝ᵥ x) * (w ⬝ᵥ y) + (x i + x (cyc i) + w ⬝ᵥ x) * (y i + y (cyc i) + w ⬝ᵥ y)) / 12

theorem massStep_bil (s : (Fin n → Fin n → ℝ) × (Option (Fin n) → ℝ)) (i : Fin n) (x y : Fin n → ℝ) :
    bil (massStep p w s i) x y (w ⬝ᵥ x) (w ⬝ᵥ y) = bil s x y (w ⬝ᵥ x) (w ⬝ᵥ y) + fan2 p w i / 2 * blend w x y i := by
  unfold massStep
  have ar : 0.25 * fanRoot p w i = fan2 p w i / 2 := by rw [fanRoot_eq]; ring
  simp only [ar]
  rw [bil_bumpN, bil_bumpV, bil_bumpV, bil_bumpM, bil_bumpM, bil_bumpM, bil_bumpM]
  unfold blend
  simp only [Prod.mk.eta]
  ring

theorem simpleMass_form (x y : Fin n → ℝ) : x ⬝ᵥ (simpleMass p w *ᵥ y) = ∑ i, fan2 p w i / 2 * blend w x y i := by
  unfold simpleMass
  rw [prolong_form]
  exact fold_bil (fun s i => massStep_bil s i x y)

/-! ## Consequences -/

theorem simpleStiffness_symm (x y : Fin n → ℝ) : x ⬝ᵥ (simpleStiffness p w *ᵥ y) = y ⬝ᵥ (simpleStiffness p w *ᵥ x) := by
  rw [simpleStiffness_form, simpleStiffness_form]
  simp only [dotProduct_comm (slope p w x _)]

theorem stiff_term_nonneg (x : Fin n → ℝ) (i : Fin n) : 0 ≤ if fan2 p w i > 1e-7 then slope p w x i ⬝ᵥ slope p w x i / (2 * fan2 p w i) else 0 := by
  split
  · exact div_nonneg (dot_self_nonneg _) (mul_nonneg two_pos.le (fan2_nonneg i))
  · exact le_rfl

theorem simpleStiffness_nonneg (x : Fin n → ℝ) : 0 ≤ x ⬝ᵥ (simpleStiffness p w *ᵥ x) := by
  rw [simpleStiffness_form]
  exact Finset.sum_nonneg (fun i _ => stiff_term_nonneg x i)

theorem slope_const (hw : ∑ i, w i = 1) {y : Fin n → ℝ} (hy : ∀ i j, y i = y j) (i : Fin n) : slope p w y i = 0 := by
  have : w ⬝ᵥ y = y i := by
    unfold dotProduct
    simp only [hy _ i]
    rw [← Finset.sum_mul, hw, one_mul]
  unfold slope
  rw [this, hy (cyc i) i, sub_self, zero_smul, zero_smul, sub_self]

theorem simpleStiffness_const (hw : ∑ i, w i = 1) (x : Fin n → ℝ) {y : Fin n → ℝ} (hy : ∀ i j, y i = y j) : x ⬝ᵥ (simpleStiffness p w *ᵥ y) = 0 := by
  rw [simpleStiffness_form]
  refine Finset.sum_eq_zero (fun i _ => ?_)
  rw [slope_const hw hy, dotProduct_zero, zero_div, ite_self]

theorem fanCross_ne {i : Fin n} (h : 0 < fan2 p w i) : fanCross p w i ≠ 0 := by
  intro e
  unfold fan2 at h
  rw [e, dotProduct_zero, Real.sqrt_zero] at h
  exact lt_irrefl _ h

theorem fan2_sq (i : Fin n) : fan2 p w i ^ 2 = fanCross p w i ⬝ᵥ fanCross p w i := Real.sq_sqrt (dot_self_nonneg _)

theorem slope_zero {x : Fin n → ℝ} {i : Fin n} (h : 0 < fan2 p w i) (hs : slope p w x i = 0) : x i = w ⬝ᵥ x := by
  have e : spoke p w i ⨯₃ slope p w x i = -((x i - w ⬝ᵥ x) • fanCross p w i) := by
    unfold slope fanCross
    rw [map_sub, map_smul, map_smul, cross_self, smul_zero, zero_sub]
  rw [hs, map_zero] at e
  rcases smul_eq_zero.1 (neg_eq_zero.1 e.symm) with e | e
  · linarith
  · exact absurd e (fanCross_ne h)

theorem simpleStiffness_zero (hb : ∀ i, fan2 p w i > 1e-7) {x : Fin n → ℝ} (h : x ⬝ᵥ (simpleStiffness p w *ᵥ x) = 0) : ∀ i j, x i = x j := by
  rw [simpleStiffness_form] at h
  have key : ∀ i, x i = w ⬝ᵥ x := by
    intro i
    have e := (Finset.sum_eq_zero_iff_of_nonneg (fun i _ => stiff_term_nonneg x i)).1 h i (Finset.mem_univ i)
    have pos : 0 < fan2 p w i := lt_trans (by norm_num) (hb i)
    rw [if_pos (hb i)] at e
    rcases div_eq_zero_iff.1 e with e | e
    · exact slope_zero pos (self_zero e)
    · linarith
  intro i j
  rw [key i, key j]

/-- On a linear function the form is the sum of its energies on the triangles of the fan. -/
theorem simpleStiffness_linear (hb : ∀ i, fan2 p w i > 1e-7) (hw : ∑ i, w i = 1) (g : Fin 3 → ℝ) (c : ℝ) :
    (fun i => g ⬝ᵥ p i + c) ⬝ᵥ (simpleStiffness p w *ᵥ (fun i => g ⬝ᵥ p i + c)) =
      ∑ i, ((g ⬝ᵥ g) * fan2 p w i ^ 2 - (g ⬝ᵥ fanCross p w i) ^ 2) / (2 * fan2 p w i) := by
  rw [simpleStiffness_form]
  have val : w ⬝ᵥ (fun i => g ⬝ᵥ p i + c) = g ⬝ᵥ (pᵀ *ᵥ w) + c := by
    have : w ⬝ᵥ (fun i => g ⬝ᵥ p i + c) = w ⬝ᵥ (p *ᵥ g) + c * ∑ i, w i := by
      unfold dotProduct mulVec
      rw [Finset.mul_sum, ← Finset.sum_add_distrib]
      refine Finset.sum_congr rfl (fun i _ => ?_)
      show w i * (g ⬝ᵥ p i + c) = w i * (p i ⬝ᵥ g) + c * w i
      rw [dotProduct_comm g]; ring
    rw [this, hw, mul_one, dotProduct_mulVec, ← mulVec_transpose, dotProduct_comm]
  refine Finset.sum_congr rfl (fun i _ => ?_)
  rw [if_pos (hb i), fan2_sq]
  congr 1
  have sl : slope p w (fun i => g ⬝ᵥ p i + c) i = (g ⬝ᵥ spoke p w (cyc i)) • spoke p w i - (g ⬝ᵥ spoke p w i) • spoke p w (cyc i) := by
    unfold slope
    simp only [val]
    unfold spoke
    rw [dotProduct_sub, dotProduct_sub]
    congr 2 <;> ring
  rw [sl]
  have cr : (g ⬝ᵥ spoke p w (cyc i)) • spoke p w i - (g ⬝ᵥ spoke p w i) • spoke p w (cyc i) = g ⨯₃ fanCross p w i := by
    unfold fanCross
    generalize spoke p w i = u
    generalize spoke p w (cyc i) = v
    funext k
    fin_cases k <;> simp [cross_apply, dotProduct, Fin.sum_univ_three] <;> ring
  rw [cr, cross_sq]

theorem simpleMass_symm (x y : Fin n → ℝ) : x ⬝ᵥ (simpleMass p w *ᵥ y) = y ⬝ᵥ (simpleMass p w *ᵥ x) := by
  rw [simpleMass_form, simpleMass_form]
  refine Finset.sum_congr rfl (fun i _ => ?_)
  unfold blend
  ring

theorem blend_nonneg (x : Fin n → ℝ) (i : Fin n) : 0 ≤ blend w x x i := by
  unfold blend
  nlinarith [sq_nonneg (x i), sq_nonneg (x (cyc i)), sq_nonneg (w ⬝ᵥ x), sq_nonneg (x i + x (cyc i) + w ⬝ᵥ x)]

theorem simpleMass_nonneg (x : Fin n → ℝ) : 0 ≤ x ⬝ᵥ (simpleMass p w *ᵥ x) := by
  rw [simpleMass_form]
  exact Finset.sum_nonneg (fun i _ => mul_nonneg (by have := fan2_nonneg (p := p) (w := w) i; linarith) (blend_nonneg x i))

theorem simpleMass_zero (hb : ∀ i, 0 < fan2 p w i) {x : Fin n → ℝ} (h : x ⬝ᵥ (simpleMass p w *ᵥ x) = 0) : ∀ i, x i = 0 := by
  rw [simpleMass_form] at h
  intro i
  have e := (Finset.sum_eq_zero_iff_of_nonneg (fun i _ => mul_nonneg (by have := fan2_nonneg (p := p) (w := w) i; linarith) (blend_nonneg x i))).1 h i
    (Finset.mem_univ i)
  rcases mul_eq_zero.1 e with e | e
  · have := hb i; linarith
  · unfold blend at e
    have : x i ^ 2 ≤ 0 := by nlinarith [sq_nonneg (x i), sq_nonneg (x (cyc i)), sq_nonneg (w ⬝ᵥ x), sq_nonneg (x i + x (cyc i) + w ⬝ᵥ x)]
    exact pow_eq_zero_iff (two_ne_zero) |>.1 (le_antisymm this (sq_nonneg _))

theorem simpleMass_total (hw : ∑ i, w i = 1) : (fun _ => 1) ⬝ᵥ (simpleMass p w *ᵥ (fun _ => 1)) = ∑ i, fan2 p w i / 2 := by
  rw [simpleMass_form]
  refine Finset.sum_congr rfl (fun i _ => ?_)
  unfold blend
  have : w ⬝ᵥ (fun _ => (1 : ℝ)) = 1 := by unfold dotProduct; simpa using hw
  rw [this]
  ring

/-! ## The virtual vertex -/

/-- The gradient of the sum of the squared areas, up to a factor. -/
noncomputable def pull (p : Matrix (Fin n) (Fin 3) ℝ) (w : Fin n → ℝ) : Fin 3 → ℝ := ∑ j, fanCross p w j ⨯₃ (p j - p (cyc j))

theorem triple (d x c : Fin 3 → ℝ) : (d ⨯₃ x) ⬝ᵥ c = x ⬝ᵥ (c ⨯₃ d) := by
  simp [cross_apply, dotProduct, Fin.sum_univ_three]
  ring

theorem spoke_sub (i j : Fin n) : spoke p w i - spoke p w j = p i - p j := by
  unfold spoke
  rw [sub_sub_sub_cancel_right]

theorem virtualJ_eq (i k : Fin n) : virtualJ p i k = 0.5 * ∑ j, ((p j - p (cyc j)) ⨯₃ p i) ⬝ᵥ ((p j - p (cyc j)) ⨯₃ p k) := by
  unfold virtualJ
  simp only [Matrix.of_apply, Finset.sum_apply]
  congr 1
  simp only [Finset.mul_sum, ← Finset.sum_sub_distrib, ← Finset.sum_add_distrib]
  refine Finset.sum_congr rfl (fun j _ => ?_)
  unfold virtualTerm
  generalize p j - p (cyc j) = d
  simp [cross_apply, dotProduct, Fin.sum_univ_three]
  ring

theorem virtualB_eq (i : Fin n) : virtualB p i = 0.5 * ∑ j, ((p j - p (cyc j)) ⨯₃ p i) ⬝ᵥ ((p j - p (cyc j)) ⨯₃ p j) := by
  unfold virtualB
  simp only [Finset.sum_apply]
  congr 1
  refine Finset.sum_congr rfl (fun j _ => ?_)
  unfold virtualTerm
  generalize p j - p (cyc j) = d
  simp [cross_apply, dotProduct, Fin.sum_univ_three]
  ring

theorem fanCross_eq (j : Fin n) : fanCross p w j = (p j - p (cyc j)) ⨯₃ p j - (p j - p (cyc j)) ⨯₃ (pᵀ *ᵥ w) := by
  rw [← map_sub]
  show _ = _ ⨯₃ spoke p w j
  rw [← spoke_sub (w := w)]
  unfold fanCross
  rw [map_sub, LinearMap.sub_apply, cross_self, zero_sub, ← cross_anticomm]

theorem dot_pull (x : Fin 3 → ℝ) : x ⬝ᵥ pull p w = ∑ j, ((p j - p (cyc j)) ⨯₃ x) ⬝ᵥ fanCross p w j := by
  unfold pull
  rw [dotProduct_sum]
  exact Finset.sum_congr rfl (fun j _ => (triple _ _ _).symm)

theorem system_row (i : Fin n) : (virtualJ p *ᵥ w) i = virtualB p i ↔ p i ⬝ᵥ pull p w = 0 := by
  have e : (virtualJ p *ᵥ w) i = 0.5 * ∑ j, ((p j - p (cyc j)) ⨯₃ p i) ⬝ᵥ ((p j - p (cyc j)) ⨯₃ (pᵀ *ᵥ w)) := by
    show ∑ k, virtualJ p i k * w k = _
    have q : pᵀ *ᵥ w = ∑ k, w k • p k := by
      funext c
      simp [mulVec, dotProduct, mul_comm]
    simp only [virtualJ_eq, q, map_sum, map_smul, dotProduct_sum, dotProduct_smul, Finset.mul_sum, Finset.sum_mul, smul_eq_mul]
    rw [Finset.sum_comm]
    exact Finset.sum_congr rfl (fun j _ => Finset.sum_congr rfl (fun k _ => by ring))
  rw [e, virtualB_eq, dot_pull]
  simp only [fanCross_eq, dotProduct_sub, Finset.sum_sub_distrib]
  constructor
  · intro h; linarith
  · intro h; linarith

theorem pull_zero (h : ∀ i, spoke p w i ⬝ᵥ pull p w = 0) : pull p w = 0 := by
  refine self_zero ?_
  rw [dot_pull]
  refine Finset.sum_eq_zero (fun j _ => ?_)
  unfold fanCross
  rw [cross_dot_cross, dotProduct_comm (pull p w), h, dotProduct_comm (pull p w), h]
  ring

/-- The squared areas of the fan around `q`. -/
noncomputable def fanEnergy (p : Matrix (Fin n) (Fin 3) ℝ) (q : Fin 3 → ℝ) : ℝ := ∑ j, ((p j - q) ⨯₃ (p (cyc j) - q)) ⬝ᵥ ((p j - q) ⨯₃ (p (cyc j) - q))

theorem pull_min (h : pull p w = 0) (q : Fin 3 → ℝ) : fanEnergy p (pᵀ *ᵥ w) ≤ fanEnergy p q := by
  have e : ∀ j, (p j - q) ⨯₃ (p (cyc j) - q) = fanCross p w j - (p j - p (cyc j)) ⨯₃ (q - pᵀ *ᵥ w) := by
    intro j
    unfold fanCross spoke
    generalize pᵀ *ᵥ w = r
    funext k
    fin_cases k <;> simp [cross_apply] <;> ring
  have d := dot_pull (p := p) (w := w) (q - pᵀ *ᵥ w)
  rw [h, dotProduct_zero] at d
  have : fanEnergy p q = fanEnergy p (pᵀ *ᵥ w) - 2 * ∑ j, ((p j - p (cyc j)) ⨯₃ (q - pᵀ *ᵥ w)) ⬝ᵥ fanCross p w j +
      ∑ j, ((p j - p (cyc j)) ⨯₃ (q - pᵀ *ᵥ w)) ⬝ᵥ ((p j - p (cyc j)) ⨯₃ (q - pᵀ *ᵥ w)) := by
    unfold fanEnergy
    rw [Finset.mul_sum, ← Finset.sum_sub_distrib, ← Finset.sum_add_distrib]
    refine Finset.sum_congr rfl (fun j _ => ?_)
    rw [e]
    show _ = fanCross p w j ⬝ᵥ fanCross p w j - _ + _
    rw [sub_dotProduct, dotProduct_sub, dotProduct_sub, dotProduct_comm (fanCross p w j) (_ ⨯₃ _)]
    ring
  rw [this, ← d]
  have : 0 ≤ ∑ j, ((p j - p (cyc j)) ⨯₃ (q - pᵀ *ᵥ w)) ⬝ᵥ ((p j - p (cyc j)) ⨯₃ (q - pᵀ *ᵥ w)) := Finset.sum_nonneg (fun j _ => dot_self_nonneg _)
  linarith

theorem fanCross_add (w0 v : Fin n → ℝ) (j : Fin n) : fanCross p (w0 + v) j = fanCross p w0 j - (p j - p (cyc j)) ⨯₃ (pᵀ *ᵥ v) := by
  rw [fanCross_eq, fanCross_eq, mulVec_add, map_add]
  abel

/-- The weights of a minimum exist. -/
theorem exists_weights (hn : 0 < n) : ∃ w : Fin n → ℝ, pull p w = 0 ∧ ∑ i, w i = 1 := by
  set w0 : Fin n → ℝ := Pi.single ⟨0, hn⟩ 1 with hw0
  have s0 : ∑ i, w0 i = 1 := by rw [hw0]; simp
  let T : (Fin n → ℝ) →ₗ[ℝ] EuclideanSpace ℝ (Fin n × Fin 3) :=
    { toFun := fun v => WithLp.toLp 2 (fun a => ((p a.1 - p (cyc a.1)) ⨯₃ (pᵀ *ᵥ v)) a.2)
      map_add' := fun a b => by ext c; simp [mulVec_add]; ring
      map_smul' := fun a b => by ext c; simp [mulVec_smul] }
  let S : (Fin n → ℝ) →ₗ[ℝ] ℝ :=
    { toFun := fun v => ∑ i, v i
      map_add' := fun a b => by simp [Finset.sum_add_distrib]
      map_smul' := fun a b => by simp [Finset.mul_sum] }
  obtain ⟨y, hy, z, hz, e⟩ := ((LinearMap.ker S).map T).exists_add_mem_mem_orthogonal (WithLp.toLp 2 (fun a => fanCross p w0 a.1 a.2))
  obtain ⟨v, hv, rfl⟩ := hy
  have hv : ∑ i, v i = 0 := hv
  have s1 : ∑ i, (w0 + v) i = 1 := by simp only [Pi.add_apply, Finset.sum_add_distrib, s0, hv, add_zero]
  have orth : ∀ x : Fin n → ℝ, ∑ i, x i = 0 → (pᵀ *ᵥ x) ⬝ᵥ pull p (w0 + v) = 0 := by
    intro x hx
    have := (Submodule.mem_orthogonal _ z).1 hz (T x) ⟨x, hx, rfl⟩
    rw [show z = WithLp.toLp 2 (fun a => fanCross p w0 a.1 a.2) - T v from by rw [e]; abel] at this
    rw [dot_pull, ← this, PiLp.inner_apply, Fintype.sum_prod_type]
    refine Finset.sum_congr rfl (fun j _ => ?_)
    unfold dotProduct
    refine Finset.sum_congr rfl (fun k _ => ?_)
    rw [fanCross_add]
    simp [T, mul_comm]
  refine ⟨w0 + v, pull_zero (fun i => ?_), s1⟩
  have : spoke p (w0 + v) i = pᵀ *ᵥ (Pi.single i 1 - (w0 + v)) := by
    unfold spoke
    rw [mulVec_sub, mulVec_single_one]
    rfl
  rw [this]
  refine orth _ ?_
  simp only [Pi.sub_apply, Finset.sum_sub_distrib, s1]
  simp

/-- A solver that solves every system that has a solution. -/
def Solves (solve : {n : ℕ} → Matrix (Fin n ⊕ Unit) (Fin n) ℝ → (Fin n ⊕ Unit → ℝ) → (Fin n → ℝ)) : Prop :=
  ∀ (n : ℕ) (A : Matrix (Fin n ⊕ Unit) (Fin n) ℝ) (b : Fin n ⊕ Unit → ℝ), (∃ x, A *ᵥ x = b) → A *ᵥ solve A b = b

theorem system_iff : Matrix.of (Sum.elim ((4 : ℝ) • virtualJ p) (fun (_ : Unit) _ => 1)) *ᵥ w = Sum.elim ((4 : ℝ) • virtualB p) (fun _ => 1) ↔
    (∀ i, p i ⬝ᵥ pull p w = 0) ∧ ∑ i, w i = 1 := by
  constructor
  · intro h
    constructor
    · intro i
      have := congrFun h (Sum.inl i)
      have e : (Matrix.of (Sum.elim ((4 : ℝ) • virtualJ p) (fun (_ : Unit) _ => 1)) *ᵥ w) (Sum.inl i) = 4 * (virtualJ p *ᵥ w) i := by
        show (((4 : ℝ) • virtualJ p) *ᵥ w) i = _
        rw [smul_mulVec]
        rfl
      rw [e] at this
      refine system_row i |>.1 ?_
      have t : 4 * (virtualJ p *ᵥ w) i = 4 * virtualB p i := this
      linarith
    · have := congrFun h (Sum.inr ())
      have t : (fun _ => (1 : ℝ)) ⬝ᵥ w = 1 := this
      simpa [dotProduct] using t
  · rintro ⟨h1, h2⟩
    funext i
    rcases i with i | i
    · have e : (Matrix.of (Sum.elim ((4 : ℝ) • virtualJ p) (fun (_ : Unit) _ => 1)) *ᵥ w) (Sum.inl i) = 4 * (virtualJ p *ᵥ w) i := by
        show (((4 : ℝ) • virtualJ p) *ᵥ w) i = _
        rw [smul_mulVec]
        rfl
      rw [e, (system_row i).2 (h1 i)]
      rfl
    · show (fun _ => (1 : ℝ)) ⬝ᵥ w = 1
      simpa [dotProduct] using h2

/-- The weights of the virtual vertex sum to one and put it where the sum of the squared areas is smallest. -/
theorem virtualVertex_spec {solve : {n : ℕ} → Matrix (Fin n ⊕ Unit) (Fin n) ℝ → (Fin n ⊕ Unit → ℝ) → (Fin n → ℝ)} (hs : Solves solve) (hn : 0 < n) :
    ∑ i, virtualVertex p solve i = 1 ∧ ∀ q, fanEnergy p (pᵀ *ᵥ virtualVertex p solve) ≤ fanEnergy p q := by
  obtain ⟨w, w1, w2⟩ := exists_weights (p := p) hn
  have := system_iff.1 (hs n _ _ ⟨w, system_iff.2 ⟨fun i => by rw [w1, dotProduct_zero], w2⟩⟩)
  obtain ⟨h1, h2⟩ := this
  refine ⟨h2, pull_min (w := virtualVertex p solve) (pull_zero (fun i => ?_))⟩
  unfold spoke
  rw [sub_dotProduct]
  have e : (pᵀ *ᵥ virtualVertex p solve) ⬝ᵥ pull p (virtualVertex p solve) = 0 := by
    rw [mulVec_transpose, ← dotProduct_mulVec]
    have : p *ᵥ pull p (virtualVertex p solve) = 0 := funext h1
    rw [this, dotProduct_zero]
  rw [e, sub_zero]
  exact h1 i

/-! ## Triangles -/

/-- Twice the vector area of a triangle. -/
noncomputable def triCross (p : Matrix (Fin 3) (Fin 3) ℝ) : Fin 3 → ℝ := (p 1 - p 0) ⨯₃ (p 2 - p 0)

theorem tri_fan {p : Matrix (Fin 3) (Fin 3) ℝ} {w : Fin 3 → ℝ} (hw : ∑ i, w i = 1) :
    fanCross p w 0 = w 2 • triCross p ∧ fanCross p w 1 = w 0 • triCross p ∧ fanCross p w 2 = w 1 • triCross p := by
  rw [Fin.sum_univ_three] at hw
  have h0 : w 0 = 1 - w 1 - w 2 := by linarith
  have q : ∀ k, (pᵀ *ᵥ w) k = (1 - w 1 - w 2) * p 0 k + w 1 * p 1 k + w 2 * p 2 k := by
    intro k
    simp only [mulVec, dotProduct, Fin.sum_univ_three, Matrix.transpose_apply, h0]
    ring
  unfold fanCross spoke triCross
  rw [cyc0, cyc1, cyc2, h0]
  refine ⟨?_, ?_, ?_⟩
  all_goals
    funext k
    fin_cases k <;> simp [cross_apply, q] <;> ring

theorem tri_energy {p : Matrix (Fin 3) (Fin 3) ℝ} {w : Fin 3 → ℝ} (hw : ∑ i, w i = 1) :
    fanEnergy p (pᵀ *ᵥ w) = (w 0 ^ 2 + w 1 ^ 2 + w 2 ^ 2) * (triCross p ⬝ᵥ triCross p) := by
  have : fanEnergy p (pᵀ *ᵥ w) = ∑ j, fanCross p w j ⬝ᵥ fanCross p w j := rfl
  obtain ⟨h0, h1, h2⟩ := tri_fan (p := p) hw
  rw [this, Fin.sum_univ_three, h0, h1, h2]
  simp only [smul_dotProduct, dotProduct_smul, smul_eq_mul]
  ring

/-- In a triangle the virtual vertex is the barycenter. -/
theorem virtualVertex_tri {solve : {n : ℕ} → Matrix (Fin n ⊕ Unit) (Fin n) ℝ → (Fin n ⊕ Unit → ℝ) → (Fin n → ℝ)} (hs : Solves solve)
    {p : Matrix (Fin 3) (Fin 3) ℝ} (hp : triCross p ≠ 0) : virtualVertex p solve = fun _ => 1 / 3 := by
  obtain ⟨h1, h2⟩ := virtualVertex_spec (p := p) hs (by norm_num)
  have h3 := h2 (pᵀ *ᵥ (fun _ => 1 / 3))
  rw [tri_energy h1, tri_energy (by rw [Fin.sum_univ_three]; norm_num)] at h3
  have pos : 0 < triCross p ⬝ᵥ triCross p := lt_of_le_of_ne (dot_self_nonneg _) (fun h => hp (self_zero h.symm))
  have h4 := le_of_mul_le_mul_right h3 pos
  rw [Fin.sum_univ_three] at h1
  set a := virtualVertex p solve 0
  set b := virtualVertex p solve 1
  set c := virtualVertex p solve 2
  have z : (a - 1 / 3) ^ 2 + (b - 1 / 3) ^ 2 + (c - 1 / 3) ^ 2 ≤ 0 := by nlinarith
  funext i
  have ea : a = 1 / 3 := by nlinarith [sq_nonneg (a - 1 / 3), sq_nonneg (b - 1 / 3), sq_nonneg (c - 1 / 3)]
  have eb : b = 1 / 3 := by nlinarith [sq_nonneg (a - 1 / 3), sq_nonneg (b - 1 / 3), sq_nonneg (c - 1 / 3)]
  have ec : c = 1 / 3 := by nlinarith [sq_nonneg (a - 1 / 3), sq_nonneg (b - 1 / 3), sq_nonneg (c - 1 / 3)]
  fin_cases i
  · exact ea
  · exact eb
  · exact ec

theorem fan2_third {p : Matrix (Fin 3) (Fin 3) ℝ} (i : Fin 3) : fan2 p (fun _ => 1 / 3) i = Real.sqrt (triCross p ⬝ᵥ triCross p) / 3 := by
  obtain ⟨h0, h1, h2⟩ := tri_fan (p := p) (w := fun _ => 1 / 3) (by rw [Fin.sum_univ_three]; norm_num)
  have e : fanCross p (fun _ => 1 / 3) i = (1 / 3 : ℝ) • triCross p := by
    fin_cases i
    · exact h0
    · exact h1
    · exact h2
  unfold fan2
  rw [e, smul_dotProduct, dotProduct_smul, smul_eq_mul, smul_eq_mul, ← mul_assoc, Real.sqrt_mul (by norm_num), Real.sqrt_mul_self (by norm_num)]
  ring

theorem simpleStiffness_third {p : Matrix (Fin 3) (Fin 3) ℝ} {A : ℝ} (hA : 2 * A = Real.sqrt (triCross p ⬝ᵥ triCross p)) (h : 2 * A / 3 > 1e-7) (φ ψ : Fin 3 → ℝ) :
    φ ⬝ᵥ (simpleStiffness p (fun _ => 1 / 3) *ᵥ ψ) = 1 / (4 * A) *
    ((p 2 - p 1) ⬝ᵥ (p 0 - p 1) * ((φ 2 - φ 0) * (ψ 2 - ψ 0)) + (p 0 - p 2) ⬝ᵥ (p 1 - p 2) * ((φ 1 - φ 0) * (ψ 1 - ψ 0)) +
      (p 1 - p 0) ⬝ᵥ (p 2 - p 0) * ((φ 2 - φ 1) * (ψ 2 - ψ 1))) := by
  have hA0 : A ≠ 0 := by
    rintro rfl
    norm_num at h
  rw [simpleStiffness_form]
  simp only [fan2_third, ← hA, if_pos h]
  have q : ∀ k, (pᵀ *ᵥ (fun _ => (1 / 3 : ℝ))) k = (p 0 k + p 1 k + p 2 k) / 3 := by
    intro k
    simp only [mulVec, dotProduct, Fin.sum_univ_three, Matrix.transpose_apply]
    ring
  have av : ∀ x : Fin 3 → ℝ, (fun _ => (1 / 3 : ℝ)) ⬝ᵥ x = (x 0 + x 1 + x 2) / 3 := by
    intro x
    simp only [dotProduct, Fin.sum_univ_three]
    ring
  rw [Fin.sum_univ_three]
  unfold slope spoke
  rw [cyc0, cyc1, cyc2]
  simp only [av, dotProduct, Fin.sum_univ_three, Pi.sub_apply, Pi.smul_apply, smul_eq_mul, q]
  field_simp
  ring

theorem simpleStiffness_tiny {p : Matrix (Fin n) (Fin 3) ℝ} {w : Fin n → ℝ} (h : ∀ i, fan2 p w i ≤ 1e-7) (x y : Fin n → ℝ) : x ⬝ᵥ (simpleStiffness p w *ᵥ y) = 0 := by
  rw [simpleStiffness_form]
  exact Finset.sum_eq_zero (fun i _ => if_neg (not_lt.2 (h i)))

end Poly
end GC
