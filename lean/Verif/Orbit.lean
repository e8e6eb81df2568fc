import Mathlib.Logic.Function.Iterate
import Mathlib.Data.Nat.Find
import Mathlib.Data.Set.Finite.Basic
import Mathlib.Data.Finset.Range
import Mathlib.Data.Set.Finite.Lattice
import Mathlib.Tactic.Common

/-!
# Orbits of a function under iteration, and cycle surgery

`Orb f x y` : `y` is reached from `x` by iterating `f`.
`Per f`     : every point lies on a cycle of `f`.
`swapf f a b` is `f ∘ (a b)`: the images of `a` and `b` are exchanged.
These are the combinatorial tools used for the halfedge mesh; nothing here
models code.
-/

namespace GC

variable {α : Type*}

/-- `y` is reached from `x` by iterating `f`. -/
def Orb (f : α → α) (x y : α) : Prop := ∃ k : ℕ, f^[k] x = y

/-- Every point lies on a cycle. -/
def Per (f : α → α) : Prop := ∀ x, ∃ k : ℕ, f^[k] (f x) = x

theorem Orb.refl (f : α → α) (x : α) : Orb f x x := ⟨0, rfl⟩

theorem Orb.trans {f : α → α} {x y z : α} (h : Orb f x y) (h' : Orb f y z) : Orb f x z := by
  obtain ⟨k, rfl⟩ := h
  obtain ⟨l, rfl⟩ := h'
  exact ⟨l + k, by rw [Function.iterate_add_apply]⟩

theorem Orb.step (f : α → α) (x : α) : Orb f x (f x) := ⟨1, rfl⟩

theorem Orb.head {f : α → α} {x y : α} (h : Orb f (f x) y) : Orb f x y := (Orb.step f x).trans h

theorem Orb.tail {f : α → α} {x y : α} (h : Orb f x y) : Orb f x (f y) := h.trans (Orb.step f y)

/-- Induction principle: a predicate closed under `f` is constant along forward orbits. -/
theorem Orb.induct {f : α → α} {x y : α} (h : Orb f x y) (p : α → Prop) (h0 : p x)
    (hs : ∀ z, p z → p (f z)) : p y := by
  obtain ⟨k, rfl⟩ := h
  induction k with
  | zero => exact h0
  | succ k ih => rw [Function.iterate_succ_apply']; exact hs _ ih

/-- Stronger induction: the points of the orbit are available in the step. -/
theorem Orb.induct' {f : α → α} {x y : α} (h : Orb f x y) (p : α → Prop) (h0 : p x)
    (hs : ∀ z, Orb f x z → p z → p (f z)) : p y := by
  obtain ⟨k, rfl⟩ := h
  induction k with
  | zero => exact h0
  | succ k ih => rw [Function.iterate_succ_apply']; exact hs _ ⟨k, rfl⟩ ih

theorem Per.back {f : α → α} (hf : Per f) (x : α) : Orb f (f x) x := hf x

theorem Orb.symm {f : α → α} (hf : Per f) {x y : α} (h : Orb f x y) : Orb f y x := by
  refine h.induct (fun z => Orb f z x) (Orb.refl f x) ?_
  intro z hz
  exact (hf.back z).trans hz

theorem orb_comm {f : α → α} (hf : Per f) {x y : α} : Orb f x y ↔ Orb f y x :=
  ⟨Orb.symm hf, Orb.symm hf⟩

theorem Per.inj {f : α → α} (hf : Per f) {x y : α} (h : f x = f y) : x = y := by
  -- both x and y are on the cycle of f x
  obtain ⟨k, hk⟩ := hf x
  obtain ⟨l, hl⟩ := hf y
  rw [← h] at hl
  -- f^[k] (f x) = x, f^[l] (f x) = y
  have key : ∀ (w : α) (k l : ℕ), k ≤ l → f^[k] w = x → f^[l] w = y → f x = f y → w = f x → x = y := by
    intro w k l hkl hk hl hxy hw
    obtain ⟨d, rfl⟩ := Nat.exists_eq_add_of_le hkl
    rw [Nat.add_comm, Function.iterate_add_apply, hk] at hl
    -- f^[d] x = y
    -- f^[k+1] x = x, so cycle
    subst hw
    have per1 : f^[k+1] x = x := by rw [Function.iterate_succ_apply]; exact hk
    have hcomm : f^[k+1] y = y := by
      rw [← hl, ← Function.iterate_add_apply, Nat.add_comm, Function.iterate_add_apply, per1]
    rw [Function.iterate_succ_apply, ← hxy] at hcomm
    rw [← hk, hcomm]
  rcases Nat.le_total k l with hkl | hkl
  · exact key (f x) k l hkl hk hl h rfl
  · refine (?_ : y = x).symm
    have key2 := key
    obtain ⟨d, rfl⟩ := Nat.exists_eq_add_of_le hkl
    rw [Nat.add_comm, Function.iterate_add_apply, hl] at hk
    have per1 : f^[l+1] y = y := by rw [Function.iterate_succ_apply, ← h]; exact hl
    have hcomm : f^[l+1] x = x := by
      rw [← hk, ← Function.iterate_add_apply, Nat.add_comm, Function.iterate_add_apply, per1]
    rw [Function.iterate_succ_apply, hl] at hcomm
    exact hcomm

theorem Per.injective {f : α → α} (hf : Per f) : Function.Injective f := fun _ _ h => hf.inj h

/-- For a periodic map, a symmetric transitive relation that contains all steps contains orbits. -/
theorem Orb.rel_of_steps {f : α → α} {x y : α} (h : Orb f x y) (r : α → α → Prop)
    (hr : ∀ z, r z z) (ht : ∀ a b c, r a b → r b c → r a c) (hs : ∀ z, Orb f x z → r z (f z)) :
    r x y :=
  h.induct' (fun z => r x z) (hr x) (fun z hz hxz => ht _ _ _ hxz (hs z hz))

/-- Orbits only depend on the map along the orbit. -/
theorem Orb.congr {f g : α → α} {x y : α} (s : α → Prop) (hx : s x) (hs : ∀ z, s z → s (f z))
    (hfg : ∀ z, s z → f z = g z) : Orb f x y ↔ Orb g x y := by
  have key : ∀ k, f^[k] x = g^[k] x ∧ s (f^[k] x) := by
    intro k
    induction k with
    | zero => exact ⟨rfl, hx⟩
    | succ k ih =>
      rw [Function.iterate_succ_apply', Function.iterate_succ_apply', ← ih.1]
      exact ⟨hfg _ ih.2, hs _ ih.2⟩
  constructor
  · rintro ⟨k, hk⟩; exact ⟨k, by rw [← (key k).1]; exact hk⟩
  · rintro ⟨k, hk⟩; exact ⟨k, by rw [(key k).1]; exact hk⟩

theorem Orb.mem {f : α → α} {x y : α} (h : Orb f x y) (s : α → Prop) (hx : s x)
    (hs : ∀ z, s z → s (f z)) : s y := h.induct s hx hs

/-- A fixed point is alone in its orbit. -/
theorem Orb.eq_of_fix {f : α → α} {x y : α} (hx : f x = x) (h : Orb f x y) : y = x :=
  h.induct (fun z => z = x) rfl (fun z hz => by rw [hz]; exact hx)

section swap
variable [DecidableEq α]

/-- Exchange the images of `a` and `b`. -/
def swapf (f : α → α) (a b : α) : α → α := fun x => if x = a then f b else if x = b then f a else f x

@[simp] theorem swapf_left (f : α → α) (a b : α) : swapf f a b a = f b := by simp [swapf]

@[simp] theorem swapf_right (f : α → α) (a b : α) : swapf f a b b = f a := by
  by_cases h : b = a
  · subst h; simp [swapf]
  · simp [swapf, h]

theorem swapf_other (f : α → α) {a b x : α} (ha : x ≠ a) (hb : x ≠ b) : swapf f a b x = f x := by
  simp [swapf, ha, hb]

theorem swapf_comm (f : α → α) (a b : α) : swapf f a b = swapf f b a := by
  funext x
  by_cases h1 : x = a
  · subst h1; simp
  · by_cases h2 : x = b
    · subst h2; simp
    · rw [swapf_other f h1 h2, swapf_other f h2 h1]

theorem swapf_self (f : α → α) (a : α) : swapf f a a = f := by
  funext x; by_cases h1 : x = a
  · subst h1; simp
  · rw [swapf_other f h1 h1]

theorem swapf_swapf (f : α → α) (a b : α) : swapf (swapf f a b) a b = f := by
  funext x
  by_cases h1 : x = a
  · subst h1; simp
  · by_cases h2 : x = b
    · subst h2; simp
    · rw [swapf_other _ h1 h2, swapf_other f h1 h2]

/-- Walk along `f` from `f b` to the next visit of `b` without meeting `a`: this walk is also a walk
of the swapped map starting at `a`. -/
theorem swapf_reach {f : α → α} (hf : Per f) {a b : α} (hab : ¬ Orb f b a) :
    Orb (swapf f a b) a b := by
  -- minimal k with f^[k] (f b) = b
  classical
  have hex := hf b
  let k := Nat.find hex
  have hk : f^[k] (f b) = b := Nat.find_spec hex
  have hmin : ∀ j < k, f^[j] (f b) ≠ b := fun j hj => Nat.find_min hex hj
  have hna : ∀ j, f^[j] (f b) ≠ a := by
    intro j hj
    exact hab ⟨j + 1, by rw [Function.iterate_succ_apply]; exact hj⟩
  have : ∀ j ≤ k, Orb (swapf f a b) a (f^[j] (f b)) := by
    intro j
    induction j with
    | zero => intro _; exact ⟨1, by simp⟩
    | succ j ih =>
      intro hj
      have h1 := ih (by omega)
      have h2 := h1.tail
      rw [swapf_other f (hna j) (hmin j (by omega))] at h2
      rw [Function.iterate_succ_apply']; exact h2
  have := this k le_rfl
  rwa [hk] at this

/-- If `a ≠ b` are on one cycle, then swapping the images separates them. -/
theorem swapf_split {f : α → α} {a b : α} (hne : a ≠ b) (hab : Orb f b a) :
    ¬ Orb (swapf f a b) a b := by
  classical
  have hex : ∃ k, f^[k] (f b) = a := by
    obtain ⟨k, hk⟩ := hab
    cases k with
    | zero => exact absurd hk.symm hne
    | succ k => exact ⟨k, by rw [← Function.iterate_succ_apply]; exact hk⟩
  let k := Nat.find hex
  have hk : f^[k] (f b) = a := Nat.find_spec hex
  have hmin : ∀ j < k, f^[j] (f b) ≠ a := fun j hj => Nat.find_min hex hj
  have hnb : ∀ j ≤ k, f^[j] (f b) ≠ b := by
    intro j hj hjb
    rcases Nat.lt_or_eq_of_le hj with hlt | rfl
    · -- f^[k-j-1] (f b) = a
      apply hmin (k - j - 1) (by omega)
      have : k = (k - j - 1) + 1 + j := by omega
      rw [this, Function.iterate_add_apply, hjb, Function.iterate_succ_apply] at hk
      exact hk
    · exact hne (hk.symm.trans hjb)
  intro horb
  have hb : ∃ j ≤ k, f^[j] (f b) = b := by
    refine horb.mem (fun z => ∃ j ≤ k, f^[j] (f b) = z) ⟨k, le_rfl, hk⟩ ?_
    rintro z ⟨j, hj, rfl⟩
    by_cases hja : f^[j] (f b) = a
    · rw [hja]; exact ⟨0, Nat.zero_le _, by simp⟩
    · have hjk : j ≠ k := by rintro rfl; exact hja hk
      refine ⟨j + 1, by omega, ?_⟩
      rw [swapf_other f hja (hnb j hj), Function.iterate_succ_apply']
  obtain ⟨j, hj, hjb⟩ := hb
  exact hnb j hj hjb

/-- The orbits of the swapped map are contained in the union of the orbits. -/
theorem swapf_orb_sub {f : α → α} (hf : Per f) {a b x y : α} (h : Orb (swapf f a b) x y) :
    Orb f x y ∨ ((Orb f a x ∨ Orb f b x) ∧ (Orb f a y ∨ Orb f b y)) := by
  refine h.induct (fun y => Orb f x y ∨ ((Orb f a x ∨ Orb f b x) ∧ (Orb f a y ∨ Orb f b y)))
    (Or.inl (Orb.refl f x)) ?_
  intro z hz
  by_cases hza : z = a
  · subst hza
    rw [swapf_left]
    right
    refine ⟨?_, Or.inr (Orb.step f b)⟩
    rcases hz with hz | ⟨hx, _⟩
    · exact Or.inl (hz.symm hf)
    · exact hx
  · by_cases hzb : z = b
    · subst hzb
      rw [swapf_right]
      right
      refine ⟨?_, Or.inl (Orb.step f a)⟩
      rcases hz with hz | ⟨hx, _⟩
      · exact Or.inr (hz.symm hf)
      · exact hx
    · rw [swapf_other f hza hzb]
      rcases hz with hz | ⟨hx, hz | hz⟩
      · exact Or.inl hz.tail
      · exact Or.inr ⟨hx, Or.inl hz.tail⟩
      · exact Or.inr ⟨hx, Or.inr hz.tail⟩

/-- An injective map whose orbit from `f x` stays in a finite set returns to `x`. -/
theorem back_of_inj_finite {f : α → α} (hinj : Function.Injective f) {x : α} (s : Set α) (hs : s.Finite)
    (hx : ∀ k, f^[k] x ∈ s) : Orb f (f x) x := by
  have : ¬ Function.Injective (fun k : ℕ => f^[k] x) := by
    intro hi
    have := Set.infinite_of_injective_forall_mem hi hx
    exact this hs
  rw [Function.Injective] at this
  push Not at this
  obtain ⟨k, l, hkl, hne⟩ := this
  wlog hlt : k < l generalizing k l
  · exact this l k hkl.symm (Ne.symm hne) (by omega)
  obtain ⟨d, rfl⟩ := Nat.exists_eq_add_of_lt hlt
  have h2 : f^[k] x = f^[k] (f^[d+1] x) := by
    rw [← Function.iterate_add_apply]; exact hkl
  have h3 := (hinj.iterate k) h2
  rw [Function.iterate_succ_apply] at h3
  exact ⟨d, h3.symm⟩

omit [DecidableEq α] in
theorem Per.orbit_finite {f : α → α} (hf : Per f) (x : α) : {y | Orb f x y}.Finite := by
  obtain ⟨k, hk⟩ := hf x
  have hper : f^[k+1] x = x := by rw [Function.iterate_succ_apply]; exact hk
  refine Set.Finite.subset ((Finset.range (k+1)).finite_toSet.image (fun j => f^[j] x)) ?_
  rintro y hy
  refine hy.mem (fun z => z ∈ (fun j => f^[j] x) '' (↑(Finset.range (k+1)) : Set ℕ)) ⟨0, by simp, rfl⟩ ?_
  rintro z ⟨j, hj, rfl⟩
  simp only [Finset.coe_range, Set.mem_Iio] at hj
  by_cases hjk : j = k
  · subst hjk
    refine ⟨0, by simp, ?_⟩
    simp only [Function.iterate_zero, id]
    rw [← Function.iterate_succ_apply' f]; exact hper.symm
  · exact ⟨j + 1, by simp; omega, by simp only; rw [Function.iterate_succ_apply']⟩

theorem swapf_injective {f : α → α} (hf : Function.Injective f) (a b : α) :
    Function.Injective (swapf f a b) := by
  intro x y h
  unfold swapf at h
  split_ifs at h <;> first
    | (subst_vars; rfl)
    | (have := hf h; subst_vars; first | rfl | contradiction)

theorem Per.swapf {f : α → α} (hf : Per f) (a b : α) : Per (swapf f a b) := by
  intro x
  refine back_of_inj_finite (swapf_injective hf.injective a b)
    ({y | Orb f x y} ∪ ({y | Orb f a y} ∪ {y | Orb f b y}))
    ((hf.orbit_finite x).union ((hf.orbit_finite a).union (hf.orbit_finite b))) ?_
  intro k
  rcases swapf_orb_sub hf (a := a) (b := b) (x := x) ⟨k, rfl⟩ with h | ⟨_, h | h⟩
  · exact Or.inl h
  · exact Or.inr (Or.inl h)
  · exact Or.inr (Or.inr h)

/-- Merging: if `a` and `b` are on different cycles, these cycles become one and nothing else
changes. -/
theorem swapf_merge {f : α → α} (hf : Per f) {a b : α} (hab : ¬ Orb f a b) (x y : α) :
    Orb (swapf f a b) x y ↔
      Orb f x y ∨ ((Orb f a x ∨ Orb f b x) ∧ (Orb f a y ∨ Orb f b y)) := by
  have hg := hf.swapf a b
  refine ⟨swapf_orb_sub hf, ?_⟩
  have hba : ¬ Orb f b a := fun h => hab (h.symm hf)
  have ab : Orb (swapf f a b) a b := swapf_reach hf hba
  have ba : Orb (swapf f a b) b a := ab.symm hg
  have stepf : ∀ z, Orb (swapf f a b) z (f z) := by
    intro z
    by_cases hza : z = a
    · subst hza
      have := ab.tail; rwa [swapf_right] at this
    · by_cases hzb : z = b
      · subst hzb
        have := ba.tail; rwa [swapf_left] at this
      · have := Orb.step (swapf f a b) z
        rwa [swapf_other f hza hzb] at this
  have sub : ∀ {z w}, Orb f z w → Orb (swapf f a b) z w := by
    intro z w h
    exact h.induct (fun w => Orb (swapf f a b) z w) (Orb.refl _ _) (fun u hu => hu.trans (stepf u))
  rintro (h | ⟨hx, hy⟩)
  · exact sub h
  · have hx' : Orb (swapf f a b) x a := by
      rcases hx with h | h
      · exact (sub h).symm hg
      · exact ((sub h).symm hg).trans ba
    have hy' : Orb (swapf f a b) a y := by
      rcases hy with h | h
      · exact sub h
      · exact ab.trans (sub h)
    exact hx'.trans hy'

/-- Splitting: if `a ≠ b` are on one cycle, the old relation is the new one with the two new
cycles joined. -/
theorem swapf_split_iff {f : α → α} (hf : Per f) {a b : α} (hne : a ≠ b) (hab : Orb f a b) (x y : α) :
    Orb f x y ↔ Orb (swapf f a b) x y ∨
      ((Orb (swapf f a b) a x ∨ Orb (swapf f a b) b x) ∧
       (Orb (swapf f a b) a y ∨ Orb (swapf f a b) b y)) := by
  have h := swapf_merge (hf.swapf a b) (swapf_split hne (hab.symm hf)) x y
  rwa [swapf_swapf] at h

/-- Inserting a fixed point `x` after `c`: the other points keep their cycles. -/
theorem swapf_insert {f : α → α} (hf : Per f) {c x : α} (hx : f x = x) (hcx : c ≠ x) {y z : α}
    (hy : y ≠ x) (hz : z ≠ x) : Orb (swapf f c x) y z ↔ Orb f y z := by
  have hn : ¬ Orb f c x := fun h => hcx (Orb.eq_of_fix hx (h.symm hf))
  rw [swapf_merge hf hn]
  constructor
  · rintro (h | ⟨h1 | h1, h2 | h2⟩)
    · exact h
    · exact (h1.symm hf).trans h2
    · exact absurd (Orb.eq_of_fix hx h2) hz
    · exact absurd (Orb.eq_of_fix hx h1) hy
    · exact absurd (Orb.eq_of_fix hx h1) hy
  · exact Or.inl

theorem swapf_insert_new {f : α → α} (hf : Per f) {c x : α} (hx : f x = x) (hcx : c ≠ x) {z : α}
    (hz : z ≠ x) : Orb (swapf f c x) x z ↔ Orb f c z := by
  have hn : ¬ Orb f c x := fun h => hcx (Orb.eq_of_fix hx (h.symm hf))
  rw [swapf_merge hf hn]
  constructor
  · rintro (h | ⟨_, h2 | h2⟩)
    · exact absurd (Orb.eq_of_fix hx h) hz
    · exact h2
    · exact absurd (Orb.eq_of_fix hx h2) hz
  · intro h
    exact Or.inr ⟨Or.inr (Orb.refl _ _), Or.inl h⟩

/-- Removing `x = f p` from its cycle: `x` becomes a fixed point, the other points keep theirs. -/
theorem swapf_remove_fix {f : α → α} {p x : α} (hp : f p = x) : swapf f p x x = x := by
  rw [swapf_right, hp]

theorem swapf_remove {f : α → α} (hf : Per f) {p x : α} (hp : f p = x) (hpx : p ≠ x) {y z : α}
    (hy : y ≠ x) (hz : z ≠ x) : Orb (swapf f p x) y z ↔ Orb f y z := by
  have := swapf_insert (hf.swapf p x) (c := p) (swapf_remove_fix hp) hpx hy hz
  rw [swapf_swapf] at this
  exact this.symm

end swap

end GC
