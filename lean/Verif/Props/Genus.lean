import Verif.Compress
import Verif.MeshCheck
import Mathlib.GroupTheory.Perm.Cycle.Type
import Mathlib.Tactic.Ring
import Mathlib.Tactic.Linarith
import Mathlib.LinearAlgebra.Dimension.RankNullity
import Mathlib.LinearAlgebra.FiniteDimensional.Lemmas
import Mathlib.Data.Real.Basic

/-! # C51: Euler characteristic and genus

The Euler characteristic of the closed-up surface is even, by the signs of the three permutations `next`, `twin` and
`next ∘ twin` of the halfedges. -/

namespace GC
open Equiv.Perm Finset

theorem card_image_congr {α β γ : Type*} [DecidableEq α] [DecidableEq β] [DecidableEq γ] (s : Finset α) (f : α → β) (g : α → γ)
    (h : ∀ x ∈ s, ∀ y ∈ s, f x = f y ↔ g x = g y) : (s.image f).card = (s.image g).card := by
  induction s using Finset.induction_on with
  | empty => simp
  | insert a s ha ih =>
    have ih' := ih (fun x hx y hy => h x (by simp [hx]) y (by simp [hy]))
    have key : f a ∈ s.image f ↔ g a ∈ s.image g := by
      simp only [mem_image]
      constructor
      · rintro ⟨x, hx, e⟩; exact ⟨x, hx, (h x (by simp [hx]) a (by simp)).1 e⟩
      · rintro ⟨x, hx, e⟩; exact ⟨x, hx, (h x (by simp [hx]) a (by simp)).2 e⟩
    rw [image_insert, image_insert]
    by_cases hm : f a ∈ s.image f
    · rw [insert_eq_self.2 hm, insert_eq_self.2 (key.1 hm), ih']
    · rw [card_insert_of_notMem hm, card_insert_of_notMem (fun h' => hm (key.2 h')), ih']

/-- The sign of a permutation from the number of its cycles, fixed points included. -/
theorem sign_eq_orbits {α β : Type*} [Fintype α] [DecidableEq α] [DecidableEq β] (σ : Equiv.Perm α) (φ : α → β)
    (h : ∀ x y, φ x = φ y ↔ SameCycle σ x y) :
    sign σ = (-1) ^ (Fintype.card α + (univ.image φ).card) := by
  have hu : (univ : Finset α) = σ.support ∪ σ.supportᶜ := by simp
  have himg : univ.image φ = σ.support.image φ ∪ σ.supportᶜ.image φ := by rw [← image_union, ← hu]
  have hdisj : Disjoint (σ.support.image φ) (σ.supportᶜ.image φ) := by
    rw [disjoint_left]
    simp only [mem_image, mem_compl]
    rintro _ ⟨x, hx, rfl⟩ ⟨y, hy, e⟩
    exact hy ((((h y x).1 e).mem_support_iff).2 hx)
  have h1 : (σ.supportᶜ.image φ).card = σ.supportᶜ.card := by
    apply card_image_of_injOn
    intro x hx y hy e
    have hs := (h x y).1 e
    simp only [coe_compl, Set.mem_compl_iff, mem_coe, mem_support, not_not] at hx
    obtain ⟨k, hk⟩ := hs
    rw [← hk]
    exact (Equiv.Perm.zpow_apply_eq_self_of_apply_eq_self hx k).symm
  have h2 : (σ.support.image φ).card = (σ.support.image (cycleOf σ)).card := by
    apply card_image_congr
    intro x hx y hy
    rw [h, sameCycle_iff_cycleOf_eq_of_mem_support hx hy]
  have h3 : σ.support.image (cycleOf σ) = σ.cycleFactorsFinset := by
    ext c
    simp only [mem_image]
    constructor
    · rintro ⟨x, hx, rfl⟩; exact cycleOf_mem_cycleFactorsFinset_iff.2 hx
    · intro hc
      have hcyc := (mem_cycleFactorsFinset_iff.1 hc).1
      obtain ⟨x, hx⟩ := hcyc.nonempty_support
      refine ⟨x, mem_cycleFactorsFinset_support_le hc hx, (cycle_is_cycleOf hx hc).symm⟩
  have h4 : Multiset.card σ.cycleType = σ.cycleFactorsFinset.card := by
    rw [cycleType_def]; simp
  have h5 : σ.supportᶜ.card + σ.support.card = Fintype.card α := by rw [card_compl]; have := card_le_univ σ.support; omega
  rw [sign_of_cycleType, sum_cycleType, h4]
  rw [himg, card_union_of_disjoint hdisj, h1, h2, h3]
  have : Fintype.card α + (σ.cycleFactorsFinset.card + σ.supportᶜ.card) = (σ.support.card + σ.cycleFactorsFinset.card) + 2 * σ.supportᶜ.card := by omega
  rw [this, pow_add _ _ (2 * _), pow_mul]
  simp

namespace Mesh
variable {m : Mesh}

/-- The live halfedges. -/
abbrev HeT (m : Mesh) := {i : Fin m.nHeFill // m.heNext i ≠ INV}

theorem HeT.live (x : HeT m) : m.heLive x.1 := ⟨x.1.2, x.2⟩

/-- A map of halfedges as a map of the live halfedges. -/
def onLive (g : ℕ → ℕ) (hg : ∀ i, m.heLive i → m.heLive (g i)) (x : HeT m) : HeT m :=
  ⟨⟨g x.1, (hg _ x.live).1⟩, (hg _ x.live).2⟩

theorem HeT.ext' {x y : HeT m} (h : (x.1 : ℕ) = y.1) : x = y := Subtype.ext (Fin.ext h)

/-- An injective map of the live halfedges as a permutation. -/
noncomputable def permOf (g : ℕ → ℕ) (hg : ∀ i, m.heLive i → m.heLive (g i)) (hi : ∀ i j, m.heLive i → m.heLive j → g i = g j → i = j) :
    Equiv.Perm (HeT m) :=
  Equiv.ofBijective (onLive g hg) (Finite.injective_iff_bijective.1 (by
    intro x y h
    exact HeT.ext' (hi _ _ x.live y.live (congrArg (fun z : HeT m => (z.1 : ℕ)) h))))

theorem permOf_apply (g : ℕ → ℕ) (hg) (hi) (x : HeT m) : ((permOf (m := m) g hg hi x).1 : ℕ) = g x.1 := rfl

theorem permOf_pow (g : ℕ → ℕ) (hg) (hi) (k : ℕ) (x : HeT m) : (((permOf (m := m) g hg hi ^ k) x).1 : ℕ) = g^[k] x.1 := by
  induction k with
  | zero => rfl
  | succ k ih => rw [pow_succ', mul_apply, permOf_apply, ih, Function.iterate_succ_apply']

theorem sameCycle_permOf (g : ℕ → ℕ) (hg) (hi) (x y : HeT m) : SameCycle (permOf (m := m) g hg hi) x y ↔ Orb g x.1 y.1 := by
  constructor
  · intro h
    obtain ⟨k, -, hk⟩ := h.exists_pow_eq'
    exact ⟨k, by rw [← permOf_pow g hg hi, hk]⟩
  · rintro ⟨k, hk⟩
    exact ⟨k, HeT.ext' (by rw [zpow_natCast, permOf_pow, hk])⟩

end Mesh

open Mesh

theorem card_heT (m : Mesh) : Fintype.card (HeT m) = Nat.count (fun i => m.heNext i ≠ INV) m.nHeFill := by
  rw [Nat.count_eq_card_filter_range, Fintype.card_subtype]
  refine card_bij (fun (i : Fin m.nHeFill) _ => (i : ℕ)) ?_ ?_ ?_
  · intro i hi; simp only [mem_filter, mem_univ, true_and] at hi; simp [hi]
  · intro i _ j _ h; exact Fin.ext h
  · intro b hb
    simp only [mem_filter, mem_range] at hb
    exact ⟨⟨b, hb.1⟩, by simpa using hb.2, rfl⟩

/-- The number of values of a labelling of the live halfedges whose values are exactly the elements `< n` satisfying `p`. -/
theorem card_image_label (m : Mesh) (lab : ℕ → ℕ) (p : ℕ → Prop) [DecidablePred p] (n : ℕ)
    (h1 : ∀ i, m.heLive i → lab i < n ∧ p (lab i)) (h2 : ∀ a, a < n → p a → ∃ i, m.heLive i ∧ lab i = a) :
    (univ.image (fun x : HeT m => lab x.1)).card = Nat.count p n := by
  rw [Nat.count_eq_card_filter_range]
  congr 1
  ext a
  simp only [mem_image, mem_univ, true_and, mem_filter, mem_range]
  constructor
  · rintro ⟨x, rfl⟩; exact h1 _ x.live
  · rintro ⟨ha, hp⟩
    obtain ⟨i, hi, e⟩ := h2 a ha hp
    exact ⟨⟨⟨i, hi.1⟩, hi.2⟩, e⟩

theorem count_faces (m : Mesh) (hv : m.Valid) : Nat.count (fun f => m.fLive f) m.nFCap = m.nF + m.nBL := by
  have hc := hv.f_cap
  have e1 : m.nFCap = m.nFFill + ((m.nFCap - m.nBLFill - m.nFFill) + m.nBLFill) := by omega
  rw [hv.cnt_f, hv.cnt_bl, e1, Nat.count_add, Nat.count_add]
  have a1 : Nat.count (fun f => m.fLive f) m.nFFill = Nat.count (fun f => m.fHalfedge f ≠ INV) m.nFFill := by
    rw [Nat.count_eq_card_filter_range, Nat.count_eq_card_filter_range]
    congr 1
    ext a
    simp only [mem_filter, mem_range]
    constructor
    · rintro ⟨h, h'⟩; exact ⟨h, h'.2⟩
    · rintro ⟨h, h'⟩; exact ⟨h, Or.inl h, h'⟩
  have a2 : Nat.count (fun k => m.fLive (m.nFFill + k)) (m.nFCap - m.nBLFill - m.nFFill) = 0 := by
    rw [Nat.count_eq_card_filter_range, card_eq_zero, filter_eq_empty_iff]
    intro k hk
    rw [mem_range] at hk
    rintro ⟨h, -⟩; omega
  have a3 : Nat.count (fun k => m.fLive (m.nFFill + (m.nFCap - m.nBLFill - m.nFFill + k))) m.nBLFill = m.nBLFill := by
    rw [Nat.count_eq_card_filter_range, filter_true_of_mem, card_range]
    intro k hk
    rw [mem_range] at hk
    refine ⟨Or.inr ⟨by omega, by omega⟩, hv.bl_live _ (by omega) (by omega)⟩
  rw [a1, a2, a3]; omega

/-- **C51, parity.** For every valid mesh there is exactly one integer `g` with V − E + F = 2 − 2g − b. -/
theorem C51_exists_genus (m : Mesh) (hv : m.Valid) : ∃! g : ℤ, (m.nV : ℤ) - m.nE + m.nF = 2 - 2 * g - m.nBL := by
  have twin_inj : ∀ i j, m.heLive i → m.heLive j → twin i = twin j → i = j := by
    intro i j _ _ h; rw [← twin_twin i, h, twin_twin]
  let sN := permOf (m := m) m.heNext hv.next_live (fun i j hi hj h => hv.next_inj hi hj h)
  let sT := permOf (m := m) twin hv.twin_live twin_inj
  have vl : ∀ i, m.heLive i → m.heLive (m.vNext i) := fun i hi => hv.vNext_live hi
  have vi : ∀ i j, m.heLive i → m.heLive j → m.vNext i = m.vNext j → i = j :=
    fun i j hi hj h => twin_inj i j hi hj (hv.next_inj (hv.twin_live _ hi) (hv.twin_live _ hj) h)
  let sV := permOf (m := m) m.vNext vl vi
  have hmul : sV = sN * sT := by
    ext x; rfl
  have hN : sign sN = (-1) ^ (m.nHe + (m.nF + m.nBL)) := by
    rw [sign_eq_orbits sN (fun x => m.heFace x.1) (by
      intro x y; rw [sameCycle_permOf]; exact hv.face_iff _ _ x.live y.live), card_heT, ← hv.cnt_he,
      card_image_label m m.heFace (fun f => m.fLive f) m.nFCap, count_faces m hv]
    · intro i hi
      have := hv.face_live _ hi
      refine ⟨?_, this⟩
      have hc := hv.f_cap
      rcases this.1 with h | h <;> omega
    · intro a _ ha; exact ⟨_, hv.f_he a ha⟩
  have hV : sign sV = (-1) ^ (m.nHe + m.nV) := by
    rw [sign_eq_orbits sV (fun x => m.heVertex x.1) (by
      intro x y; rw [sameCycle_permOf]; exact hv.vertex_iff _ _ x.live y.live), card_heT, ← hv.cnt_he,
      card_image_label m m.heVertex (fun v => m.vHalfedge v ≠ INV) m.nVFill, ← hv.cnt_v]
    · intro i hi; exact hv.vertex_live _ hi
    · intro a h1 h2; exact ⟨_, hv.v_he a ⟨h1, h2⟩⟩
  have hT : sign sT = (-1) ^ (m.nHe + m.nE) := by
    rw [sign_eq_orbits sT (fun x => (x.1 : ℕ) / 2) (by
      intro x y; rw [sameCycle_permOf]
      constructor
      · intro h
        have h1 := twin_div (x.1 : ℕ)
        have h2 := twin_ne (x.1 : ℕ)
        have : (y.1 : ℕ) = x.1 ∨ (y.1 : ℕ) = twin x.1 := by omega
        rcases this with e | e
        · exact ⟨0, e.symm⟩
        · exact ⟨1, e.symm⟩
      · rintro ⟨k, hk⟩
        rw [← hk]
        clear hk
        induction k with
        | zero => rfl
        | succ k ih => rw [Function.iterate_succ_apply', twin_div]; exact ih), card_heT, ← hv.cnt_he,
      card_image_label m (fun i => i / 2) (fun e => m.heNext (eHalfedge e) ≠ INV) m.nEFill, ← hv.cnt_e]
    · intro i hi
      have hf := hv.he_fill
      have := hi.1
      refine ⟨by omega, ?_⟩
      unfold eHalfedge
      rcases Nat.mod_two_eq_zero_or_one i with e | e
      · rw [show 2 * (i / 2) = i by omega]; exact hi.2
      · have := (hv.twin_live _ hi).2
        rwa [show i = 2 * (i / 2) + 1 by omega, twin_two_mul_add] at this
    · intro a h1 h2
      have hf := hv.he_fill
      exact ⟨eHalfedge a, ⟨by unfold eHalfedge; omega, h2⟩, by unfold eHalfedge; omega⟩
  have hs : sign sV = sign sN * sign sT := by rw [hmul, sign_mul]
  rw [hN, hV, hT, ← pow_add] at hs
  have hE := hv.nHe_eq
  have hpar : Even (m.nV + m.nE + m.nF + m.nBL) := by
    have : ((-1 : ℤˣ)) ^ (m.nHe + m.nV + (m.nHe + (m.nF + m.nBL) + (m.nHe + m.nE))) = 1 := by
      rw [pow_add, hs, ← pow_add, ← two_mul, pow_mul]; simp
    have h2 : m.nHe + m.nV + (m.nHe + (m.nF + m.nBL) + (m.nHe + m.nE)) = (m.nV + m.nE + m.nF + m.nBL) + 2 * (3 * m.nE) := by omega
    rw [h2, pow_add, pow_mul] at this
    simp only [even_two, Even.neg_pow, one_pow, mul_one] at this
    by_contra ho
    rw [Nat.not_even_iff_odd] at ho
    rw [ho.neg_one_pow] at this
    exact absurd this (by decide)
  obtain ⟨k, hk⟩ := hpar
  refine ⟨1 - k + m.nE, ?_, ?_⟩
  · simp only; have : ((m.nV : ℤ) + m.nE + m.nF + m.nBL) = k + k := by exact_mod_cast hk
    linarith
  · intro g hg
    have : ((m.nV : ℤ) + m.nE + m.nF + m.nBL) = k + k := by exact_mod_cast hk
    omega

/-- **C51 (partial).** With g the integer of `C51_exists_genus`, `genus()` returns g exactly if the mesh is closed, or has one boundary
loop and g ≤ 0 (a disc). Missing: every other mesh with boundary (`C51_fails`), because `genus` subtracts the boundary loops from an
Euler characteristic that already counts them as faces. -/
theorem C51_genus_partial (m : Mesh) (g : ℤ) (hg : (m.nV : ℤ) - m.nE + m.nF = 2 - 2 * g - m.nBL) :
    m.genus = g ↔ m.nBL = 0 ∨ (m.nBL = 1 ∧ g ≤ 0) := by
  have : m.genus = (2 * g - m.nBL).tdiv 2 := by
    unfold genus eulerCharacteristic; congr 1; linarith
  rw [this]
  rcases le_or_gt 0 (2 * g - (m.nBL : ℤ)) with h | h
  · rw [Int.tdiv_eq_ediv_of_nonneg h]; omega
  · have : (2 * g - (m.nBL : ℤ)).tdiv 2 = -((m.nBL - 2 * g : ℤ) / 2) := by
      rw [show 2 * g - (m.nBL : ℤ) = -(m.nBL - 2 * g) by ring, Int.neg_tdiv, Int.tdiv_eq_ediv_of_nonneg (by omega)]
    rw [this]; omega

/-- A sphere, a disc. -/
example : tetra.genus = 0 ∧ (tetra.nV : ℤ) - tetra.nE + tetra.nF = 2 - 2 * 0 - tetra.nBL ∧ square.nBL = 1 ∧
    (square.nV : ℤ) - square.nE + square.nF = 2 - 2 * 0 - square.nBL := by decide +kernel

/-! ### Connected meshes -/

/-- Any two halfedges are joined by steps `next` and `twin`: whatever is constant along both is constant. -/
def Mesh.Connected (m : Mesh) : Prop :=
  ∀ i j, m.heLive i → m.heLive j → Relation.EqvGen (fun a b => m.heLive a ∧ (b = m.heNext a ∨ b = twin a)) i j

theorem Mesh.Connected.const {m : Mesh} (hc : m.Connected) {β : Type*} (h : ℕ → β) (h1 : ∀ i, m.heLive i → h (m.heNext i) = h i)
    (h2 : ∀ i, m.heLive i → h (twin i) = h i) {i j : ℕ} (hi : m.heLive i) (hj : m.heLive j) : h i = h j := by
  have := hc i j hi hj
  clear hi hj
  induction this with
  | rel a b hab =>
    obtain ⟨ha, rfl | rfl⟩ := hab
    · exact (h1 a ha).symm
    · exact (h2 a ha).symm
  | refl => rfl
  | symm a b _ ih => exact ih.symm
  | trans a b c _ _ ih1 ih2 => exact ih1.trans ih2

section ree
variable {X Y Z : Type} [Fintype X] [Fintype Y] [Fintype Z]

/-- Two linear maps into the functions on `Z` with one-dimensional kernels and orthogonal ranges. -/
theorem rank_bound (A : (X → ℝ) →ₗ[ℝ] (Z → ℝ)) (B : (Y → ℝ) →ₗ[ℝ] (Z → ℝ))
    (hA : ∀ f, A f = 0 → ∀ x y, f x = f y) (hB : ∀ f, B f = 0 → ∀ x y, f x = f y)
    (horth : ∀ f g, ∑ z, A f z * B g z = 0) : Fintype.card X + Fintype.card Y ≤ Fintype.card Z + 2 := by
  have ker1 : ∀ {W : Type} [Fintype W] (C : (W → ℝ) →ₗ[ℝ] (Z → ℝ)), (∀ f, C f = 0 → ∀ x y, f x = f y) →
      Fintype.card W ≤ Module.finrank ℝ (LinearMap.range C) + 1 := by
    intro W _ C hC
    have h1 := LinearMap.finrank_range_add_finrank_ker C
    rw [Module.finrank_fintype_fun_eq_card] at h1
    have h2 : Module.finrank ℝ (LinearMap.ker C) ≤ 1 := by
      have : LinearMap.ker C ≤ Submodule.span ℝ {(fun _ => 1 : W → ℝ)} := by
        intro f hf
        rw [Submodule.mem_span_singleton]
        rcases isEmpty_or_nonempty W with hW | ⟨⟨w⟩⟩
        · exact ⟨0, Subsingleton.elim _ _⟩
        · exact ⟨f w, by funext x; simpa using hC f hf w x⟩
      exact (Submodule.finrank_mono this).trans ((finrank_span_le_card _).trans (by simp))
    omega
  have hX := ker1 A hA
  have hY := ker1 B hB
  have hd : Disjoint (LinearMap.range A) (LinearMap.range B) := by
    rw [Submodule.disjoint_def]
    rintro _ ⟨f, rfl⟩ ⟨g, hg⟩
    have := horth f g
    rw [hg] at this
    funext z
    have h0 := (Finset.sum_eq_zero_iff_of_nonneg (fun z _ => mul_self_nonneg (A f z))).1 this z (mem_univ z)
    simpa using h0
  have := Submodule.finrank_add_finrank_le_of_disjoint hd
  rw [Module.finrank_fintype_fun_eq_card] at this
  omega

end ree

theorem card_sub {n : ℕ} {p : ℕ → Prop} [DecidablePred p] : Fintype.card {a : Fin n // p a} = Nat.count p n := by
  rw [Nat.count_eq_card_filter_range, Fintype.card_subtype]
  refine card_bij (fun (i : Fin n) _ => (i : ℕ)) ?_ ?_ ?_
  · intro i hi; simp only [mem_filter, mem_univ, true_and] at hi; simp [hi]
  · intro i _ j _ h; exact Fin.ext h
  · intro b hb
    simp only [mem_filter, mem_range] at hb
    exact ⟨⟨b, hb.1⟩, by simpa using hb.2, rfl⟩

/-- The Euler characteristic of a connected valid mesh, closed up, is at most two. -/
theorem euler_le_two (m : Mesh) (hv : m.Valid) (hc : m.Connected) : m.nV + (m.nF + m.nBL) ≤ m.nE + 2 := by
  classical
  let VT := {v : Fin m.nVFill // m.vHalfedge v ≠ INV}
  let FT := {f : Fin m.nFCap // m.fLive f}
  let ET := {e : Fin m.nEFill // m.heNext (eHalfedge e) ≠ INV}
  have cV : Fintype.card VT = m.nV := by rw [hv.cnt_v]; exact card_sub (p := fun v => m.vHalfedge v ≠ INV)
  have cF : Fintype.card FT = m.nF + m.nBL := by rw [← count_faces m hv]; exact card_sub (p := fun f => m.fLive f)
  have cE : Fintype.card ET = m.nE := by rw [hv.cnt_e]; exact card_sub (p := fun e => m.heNext (eHalfedge e) ≠ INV)
  let vOf : HeT m → VT := fun x => ⟨⟨m.heVertex x.1, (hv.vertex_live _ x.live).1⟩, (hv.vertex_live _ x.live).2⟩
  have fcap : ∀ i, m.heLive i → m.heFace i < m.nFCap := by
    intro i hi
    have := (hv.face_live _ hi).1
    have hc := hv.f_cap
    rcases this with h | h <;> omega
  let fOf : HeT m → FT := fun x => ⟨⟨m.heFace x.1, fcap _ x.live⟩, hv.face_live _ x.live⟩
  let tw : HeT m → HeT m := onLive twin hv.twin_live
  let nx : HeT m → HeT m := onLive m.heNext hv.next_live
  have elive : ∀ e : ET, m.heLive (eHalfedge e.1) := fun e => ⟨by have := e.1.2; have := hv.he_fill; unfold eHalfedge; omega, e.2⟩
  let eh : ET → HeT m := fun e => ⟨⟨eHalfedge e.1, (elive e).1⟩, e.2⟩
  have eh_val : ∀ e, ((eh e).1 : ℕ) = 2 * (e.1 : ℕ) := fun e => rfl
  have tw_val : ∀ e, ((tw (eh e)).1 : ℕ) = 2 * (e.1 : ℕ) + 1 := fun e => twin_two_mul _
  have split : ∀ F : HeT m → ℝ, ∑ x, F x = ∑ e, (F (eh e) + F (tw (eh e))) := by
    intro F
    rw [Finset.sum_add_distrib]
    refine Eq.trans ?_ (Fintype.sum_sum_type (fun s : ET ⊕ ET => F (Sum.elim eh (tw ∘ eh) s)))
    refine (Fintype.sum_bijective (Sum.elim eh (tw ∘ eh)) ⟨?_, ?_⟩ _ _ (fun _ => rfl)).symm
    · rintro (a | a) (b | b) h
      · have : (a.1 : ℕ) = b.1 := by
          have := congrArg (fun z : HeT m => (z.1 : ℕ)) h
          simp only [Sum.elim_inl, eh_val] at this; omega
        exact congrArg Sum.inl (Subtype.ext (Fin.ext this))
      · exfalso
        have := congrArg (fun z : HeT m => (z.1 : ℕ)) h
        simp only [Sum.elim_inl, Sum.elim_inr, Function.comp_apply, eh_val, tw_val] at this; omega
      · exfalso
        have := congrArg (fun z : HeT m => (z.1 : ℕ)) h
        simp only [Sum.elim_inl, Sum.elim_inr, Function.comp_apply, eh_val, tw_val] at this; omega
      · have : (a.1 : ℕ) = b.1 := by
          have := congrArg (fun z : HeT m => (z.1 : ℕ)) h
          simp only [Sum.elim_inr, Function.comp_apply, tw_val] at this; omega
        exact congrArg Sum.inr (Subtype.ext (Fin.ext this))
    · intro x
      have hx := x.live
      have hlt := hx.1
      have hf := hv.he_fill
      rcases Nat.mod_two_eq_zero_or_one (x.1 : ℕ) with e | e
      · have e2 : eHalfedge ((x.1 : ℕ) / 2) = x.1 := by unfold eHalfedge; omega
        exact ⟨Sum.inl ⟨⟨(x.1 : ℕ) / 2, by omega⟩, by rw [e2]; exact x.2⟩, HeT.ext' e2⟩
      · have ht := hv.twin_live _ hx
        have e2 : eHalfedge ((x.1 : ℕ) / 2) = twin x.1 := by
          have : (x.1 : ℕ) = 2 * ((x.1 : ℕ) / 2) + 1 := by omega
          rw [this, twin_two_mul_add]; unfold eHalfedge; omega
        refine ⟨Sum.inr ⟨⟨(x.1 : ℕ) / 2, by omega⟩, by rw [e2]; exact ht.2⟩, HeT.ext' ?_⟩
        show twin (eHalfedge ((x.1 : ℕ) / 2)) = x.1
        rw [e2, twin_twin]
  have vtw : ∀ x, vOf (tw x) = vOf (nx x) := fun x => Subtype.ext (Fin.ext (hv.vertex_next x.live).symm)
  have fnx : ∀ x, fOf (nx x) = fOf x := fun x => Subtype.ext (Fin.ext (hv.face_next x.live))
  have twtw : ∀ x, tw (tw x) = x := fun x => HeT.ext' (twin_twin _)
  have vsurj : ∀ v : VT, ∃ x, vOf x = v := by
    intro v
    obtain ⟨h1, h2⟩ := hv.v_he v.1 ⟨v.1.2, v.2⟩
    exact ⟨⟨⟨_, h1.1⟩, h1.2⟩, Subtype.ext (Fin.ext h2)⟩
  have fsurj : ∀ f : FT, ∃ x, fOf x = f := by
    intro f
    obtain ⟨h1, h2⟩ := hv.f_he f.1 f.2
    exact ⟨⟨⟨_, h1.1⟩, h1.2⟩, Subtype.ext (Fin.ext h2)⟩
  -- constancy along `next` and `twin`
  have conn : ∀ h : HeT m → ℝ, (∀ x, h (nx x) = h x) → (∀ x, h (tw x) = h x) → ∀ x y, h x = h y := by
    intro h h1 h2 x y
    have := hc.const (fun i => if hi : m.heLive i then h ⟨⟨i, hi.1⟩, hi.2⟩ else 0) ?_ ?_ x.live y.live
    · simp only [dif_pos x.live, dif_pos y.live] at this; exact this
    · intro i hi
      simp only [dif_pos hi, dif_pos (hv.next_live _ hi)]
      exact h1 ⟨⟨i, hi.1⟩, hi.2⟩
    · intro i hi
      simp only [dif_pos hi, dif_pos (hv.twin_live _ hi)]
      exact h2 ⟨⟨i, hi.1⟩, hi.2⟩
  -- equality across all edges is equality of twins
  have allTw : ∀ h : HeT m → ℝ, (∀ e, h (tw (eh e)) = h (eh e)) → ∀ x, h (tw x) = h x := by
    intro h he x
    have hx := x.live
    have hlt := hx.1
    have hf := hv.he_fill
    rcases Nat.mod_two_eq_zero_or_one (x.1 : ℕ) with e | e
    · have e2 : eHalfedge ((x.1 : ℕ) / 2) = x.1 := by unfold eHalfedge; omega
      have := he ⟨⟨(x.1 : ℕ) / 2, by omega⟩, by rw [e2]; exact x.2⟩
      have hh : eh ⟨⟨(x.1 : ℕ) / 2, by omega⟩, by rw [e2]; exact x.2⟩ = x := HeT.ext' e2
      rwa [hh] at this
    · have ht := hv.twin_live _ hx
      have e2 : eHalfedge ((x.1 : ℕ) / 2) = twin x.1 := by
        have : (x.1 : ℕ) = 2 * ((x.1 : ℕ) / 2) + 1 := by omega
        rw [this, twin_two_mul_add]; unfold eHalfedge; omega
      have := he ⟨⟨(x.1 : ℕ) / 2, by omega⟩, by rw [e2]; exact ht.2⟩
      have hh : eh ⟨⟨(x.1 : ℕ) / 2, by omega⟩, by rw [e2]; exact ht.2⟩ = tw x := HeT.ext' e2
      rw [hh, twtw] at this; exact this.symm
  let A : (VT → ℝ) →ₗ[ℝ] (ET → ℝ) :=
    { toFun := fun f e => f (vOf (tw (eh e))) - f (vOf (eh e))
      map_add' := by intro f g; funext e; simp only [Pi.add_apply]; ring
      map_smul' := by intro c f; funext e; simp only [Pi.smul_apply, smul_eq_mul, RingHom.id_apply]; ring }
  let B : (FT → ℝ) →ₗ[ℝ] (ET → ℝ) :=
    { toFun := fun g e => g (fOf (eh e)) - g (fOf (tw (eh e)))
      map_add' := by intro f g; funext e; simp only [Pi.add_apply]; ring
      map_smul' := by intro c f; funext e; simp only [Pi.smul_apply, smul_eq_mul, RingHom.id_apply]; ring }
  have hA : ∀ f, A f = 0 → ∀ x y, f x = f y := by
    intro f hf a b
    obtain ⟨x, rfl⟩ := vsurj a
    obtain ⟨y, rfl⟩ := vsurj b
    have h2 : ∀ x, f (vOf (tw x)) = f (vOf x) := allTw (fun x => f (vOf x)) (fun e => sub_eq_zero.1 (congrFun hf e))
    exact conn (fun x => f (vOf x)) (fun x => by rw [← vtw]; exact h2 x) h2 x y
  have hB : ∀ f, B f = 0 → ∀ x y, f x = f y := by
    intro f hf a b
    obtain ⟨x, rfl⟩ := fsurj a
    obtain ⟨y, rfl⟩ := fsurj b
    have h2 : ∀ x, f (fOf (tw x)) = f (fOf x) := allTw (fun x => f (fOf x)) (fun e => (sub_eq_zero.1 (congrFun hf e)).symm)
    exact conn (fun x => f (fOf x)) (fun x => by rw [fnx]) h2 x y
  have nxb : Function.Bijective nx := Finite.injective_iff_bijective.1 (by
    intro x y h
    exact HeT.ext' (hv.next_inj x.live y.live (congrArg (fun z : HeT m => (z.1 : ℕ)) h)))
  have horth : ∀ f g, ∑ z, A f z * B g z = 0 := by
    intro f g
    have h1 : ∑ x, (f (vOf (tw x)) - f (vOf x)) * g (fOf x) = ∑ z, A f z * B g z := by
      rw [split]
      apply Finset.sum_congr rfl
      intro e _
      rw [twtw]
      show _ = (f (vOf (tw (eh e))) - f (vOf (eh e))) * (g (fOf (eh e)) - g (fOf (tw (eh e))))
      ring
    have h2 : ∑ x, f (vOf (tw x)) * g (fOf x) = ∑ x, f (vOf x) * g (fOf x) :=
      Fintype.sum_bijective nx nxb _ _ (fun x => by rw [vtw, fnx])
    rw [← h1]
    simp only [sub_mul, Finset.sum_sub_distrib, h2, sub_self]
  have := rank_bound A B hA hB horth
  rw [cV, cF, cE] at this
  exact this

/-- **C51, connected meshes (partial).** On a connected valid mesh the genus g is not negative, and `genus()` returns it exactly
if the mesh is closed or a disc. Missing: all other meshes with boundary (`C51_fails`). -/
theorem C51_connected_partial (m : Mesh) (hv : m.Valid) (hc : m.Connected) :
    ∃ g : ℤ, 0 ≤ g ∧ (m.nV : ℤ) - m.nE + m.nF = 2 - 2 * g - m.nBL ∧ (m.genus = g ↔ m.nBL = 0 ∨ (m.nBL = 1 ∧ g = 0)) := by
  obtain ⟨g, hg, -⟩ := C51_exists_genus m hv
  have := euler_le_two m hv hc
  have h0 : 0 ≤ g := by omega
  refine ⟨g, h0, hg, ?_⟩
  rw [C51_genus_partial m g hg]
  omega

/-- An annulus of two quadrilaterals. -/
def annulus : Mesh :=
  ofLists [10, 3, 8, 1, 9, 7, 11, 5, 6, 0, 4, 2] [0, 1, 1, 0, 3, 2, 2, 3, 0, 2, 1, 3] [0, 2, 1, 2, 0, 3, 1, 3, 1, 0, 0, 1]
    [0, 2, 6, 4] [0, 2, 1, 5] 2

theorem annulus_valid : annulus.Valid := valid_of_check (by decide +kernel)

/-- From halfedge 0 every halfedge of the annulus is reached. -/
theorem annulus_connected : annulus.Connected := by
  have step : ∀ a b, annulus.heLive a ∧ (b = annulus.heNext a ∨ b = twin a) →
      Relation.EqvGen (fun a b => annulus.heLive a ∧ (b = annulus.heNext a ∨ b = twin a)) a b := fun a b h => .rel _ _ h
  have r0 : ∀ i, annulus.heLive i → Relation.EqvGen (fun a b => annulus.heLive a ∧ (b = annulus.heNext a ∨ b = twin a)) 0 i := by
    have h10 := step 0 10 (by decide +kernel)
    have h4 := h10.trans _ _ _ (step 10 4 (by decide +kernel))
    have h9 := h4.trans _ _ _ (step 4 9 (by decide +kernel))
    have h8 := h9.trans _ _ _ (step 9 8 (by decide +kernel))
    have h6 := h8.trans _ _ _ (step 8 6 (by decide +kernel))
    have h11 := h6.trans _ _ _ (step 6 11 (by decide +kernel))
    have h2 := h11.trans _ _ _ (step 11 2 (by decide +kernel))
    intro i hi
    have : i < 12 := hi.1
    interval_cases i
    · exact .refl _
    · exact step 0 1 (by decide +kernel)
    · exact h2
    · exact h2.trans _ _ _ (step 2 3 (by decide +kernel))
    · exact h4
    · exact h4.trans _ _ _ (step 4 5 (by decide +kernel))
    · exact h6
    · exact h6.trans _ _ _ (step 6 7 (by decide +kernel))
    · exact h8
    · exact h9
    · exact h10
    · exact h11
  intro i j hi hj
  exact ((r0 i hi).symm _ _).trans _ _ _ (r0 j hj)

/-- **C51 (refutation).** The annulus has g = 0, but `genus()` returns −1. -/
theorem C51_fails : ¬ ∀ (m : Mesh) (g : ℤ), m.Valid → m.Connected → (m.nV : ℤ) - m.nE + m.nF = 2 - 2 * g - m.nBL → m.genus = g := by
  intro h
  exact absurd (h annulus 0 annulus_valid annulus_connected (by decide +kernel)) (by decide +kernel)

end GC
