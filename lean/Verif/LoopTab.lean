import Mathlib.Tactic.Ring

/-! # A triangle while its sides are being split

Pieces of a side `c`: `pc c 0` and `pc c 1` are its two halves (before it is split, `pc c 0` is the side), `pc c 2` the inner halfedge from its
middle, `pc c 3` the opposite one.  Sides are split in the order of their edges `c / 2`. -/

namespace GC

/-- Successors of the pieces of the triangle `i, j, k` after the edges before `n` have been split; `i` is the side split first. -/
structure Tab (n : ℕ) (pc : ℕ → ℕ → ℕ) (nx : ℕ → ℕ) (i j k : ℕ) : Prop where
  n0 : n ≤ i / 2 → nx (pc i 0) = pc j 0 ∧ nx (pc j 0) = pc k 0 ∧ nx (pc k 0) = pc i 0
  n1 : i / 2 < n → nx (pc i 1) = pc j 0
  j1 : i / 2 < n → j / 2 < n → nx (pc j 0) = pc j 2 ∧ nx (pc j 2) = pc i 1 ∧ nx (pc j 1) = pc i 3 ∧ nx (pc i 3) = pc j 3 ∧ nx (pc j 3) = pc j 1
  j0 : i / 2 < n → n ≤ j / 2 → nx (pc j 0) = pc i 3 ∧ nx (pc i 3) = pc i 1
  k1 : i / 2 < n → k / 2 < n → nx (pc k 1) = pc i 0 ∧ nx (pc i 0) = pc k 3 ∧ nx (pc k 3) = pc k 1 ∧ nx (pc k 0) = pc k 2 ∧
    nx (pc k 2) = pc i 2 ∧ nx (pc i 2) = pc k 0
  k0 : i / 2 < n → n ≤ k / 2 → nx (pc k 0) = pc i 0 ∧ nx (pc i 0) = pc i 2 ∧ nx (pc i 2) = pc k 0

/-- The pieces that follow the side `a` that is about to be split. -/
def around (n i j k a : ℕ) : (ℕ × ℕ) × (ℕ × ℕ) :=
  if a = i then ((j, 0), (k, 0)) else if a = j then ((i, 3), (i, 1)) else ((i, 0), (i, 2))

variable {n : ℕ} {pc pc' : ℕ → ℕ → ℕ} {nx nx' : ℕ → ℕ} {i j k a : ℕ}

/-- A triangle none of whose sides is split. -/
theorem Tab.keep (T : Tab n pc nx i j k) (hi : i / 2 ≠ n) (hj : j / 2 ≠ n) (hk : k / 2 ≠ n)
    (hp : ∀ c, c = i ∨ c = j ∨ c = k → ∀ t, pc' c t = pc c t)
    (hn : ∀ c, c = i ∨ c = j ∨ c = k → ∀ t, t ≤ 3 → (t = 0 ∨ c / 2 < n) → nx' (pc c t) = nx (pc c t)) (hij : i / 2 < j / 2) (hik : i / 2 < k / 2) :
    Tab (n + 1) pc' nx' i j k := by
  have pi := hp i (.inl rfl); have pj := hp j (.inr (.inl rfl)); have pk := hp k (.inr (.inr rfl))
  have ni := hn i (.inl rfl); have nj := hn j (.inr (.inl rfl)); have nk := hn k (.inr (.inr rfl))
  constructor
  · intro h
    rw [pi, pj, pk, ni 0 (by omega) (.inl rfl), nj 0 (by omega) (.inl rfl), nk 0 (by omega) (.inl rfl)]; exact T.n0 (by omega)
  · intro h
    have h' : i / 2 < n := by omega
    rw [pi, pj, ni 1 (by omega) (.inr h')]; exact T.n1 h'
  · intro h g
    have h' : i / 2 < n := by omega
    have g' : j / 2 < n := by omega
    simp only [pi, pj, nj 0 (by omega) (.inl rfl), nj 1 (by omega) (.inr g'), nj 2 (by omega) (.inr g'), nj 3 (by omega) (.inr g'), ni 3 (by omega) (.inr h')]
    exact T.j1 h' g'
  · intro h g
    have h' : i / 2 < n := by omega
    simp only [pi, pj, nj 0 (by omega) (.inl rfl), ni 3 (by omega) (.inr h')]
    exact T.j0 h' (by omega)
  · intro h g
    have h' : i / 2 < n := by omega
    have g' : k / 2 < n := by omega
    simp only [pi, pk, nk 0 (by omega) (.inl rfl), nk 1 (by omega) (.inr g'), nk 2 (by omega) (.inr g'), nk 3 (by omega) (.inr g'), ni 0 (by omega) (.inl rfl), ni 2 (by omega) (.inr h')]
    exact T.k1 h' g'
  · intro h g
    have h' : i / 2 < n := by omega
    simp only [pi, pk, nk 0 (by omega) (.inl rfl), ni 0 (by omega) (.inl rfl), ni 2 (by omega) (.inr h')]
    exact T.k0 h' (by omega)

/-- Before the side `a` is split it lies in a triangle with the two pieces given by `around`. -/
theorem Tab.around_next (T : Tab n pc nx i j k) (hij : i / 2 < j / 2) (hik : i / 2 < k / 2) (ha : a = i ∨ a = j ∨ a = k) (han : a / 2 = n) :
    nx (pc a 0) = pc (around n i j k a).1.1 (around n i j k a).1.2 ∧
    nx (pc (around n i j k a).1.1 (around n i j k a).1.2) = pc (around n i j k a).2.1 (around n i j k a).2.2 ∧
    nx (pc (around n i j k a).2.1 (around n i j k a).2.2) = pc a 0 := by
  unfold around
  rcases ha with rfl | rfl | rfl
  · rw [if_pos rfl]; exact T.n0 (by omega)
  · rw [if_neg (by rintro rfl; omega), if_pos rfl]
    obtain ⟨x, y⟩ := T.j0 (by omega) (by omega)
    exact ⟨x, y, T.n1 (by omega)⟩
  · rw [if_neg (by rintro rfl; omega)]
    obtain ⟨x, y, z⟩ := T.k0 (by omega) (by omega)
    by_cases c : a = j
    · subst c
      rw [if_pos rfl]
      obtain ⟨x, y⟩ := T.j0 (by omega) (by omega)
      exact ⟨x, y, T.n1 (by omega)⟩
    · rw [if_neg c]; exact ⟨x, y, z⟩

/-- The pieces of `around` exist and belong to the triangle. -/
theorem around_ok (hij : i / 2 < j / 2) (hik : i / 2 < k / 2) (han : a / 2 = n) (ha : a = i ∨ a = j ∨ a = k) :
    ((around n i j k a).1.1 = i ∨ (around n i j k a).1.1 = j ∨ (around n i j k a).1.1 = k) ∧
    ((around n i j k a).2.1 = i ∨ (around n i j k a).2.1 = j ∨ (around n i j k a).2.1 = k) ∧
    (around n i j k a).1.2 ≤ 3 ∧ (around n i j k a).2.2 ≤ 3 ∧
    ((around n i j k a).1.2 = 0 ∨ (around n i j k a).1.1 / 2 < n) ∧ ((around n i j k a).2.2 = 0 ∨ (around n i j k a).2.1 / 2 < n) := by
  unfold around
  split_ifs with h1 h2 <;> simp
  · omega
  · rcases ha with h | h | h <;> omega

/-- One side is split. -/
theorem Tab.step (T : Tab n pc nx i j k) (hij : i / 2 < j / 2) (hik : i / 2 < k / 2) (hjk : j / 2 ≠ k / 2) (ha : a = i ∨ a = j ∨ a = k) (han : a / 2 = n)
    (hp : ∀ c, c = i ∨ c = j ∨ c = k → c ≠ a → ∀ t, pc' c t = pc c t)
    (hn : ∀ c, c = i ∨ c = j ∨ c = k → ∀ t, t ≤ 3 → (t = 0 ∨ c / 2 < n) → (c, t) ≠ (a, 0) → (c, t) ≠ (around n i j k a).1 →
      (c, t) ≠ (around n i j k a).2 → nx' (pc c t) = nx (pc c t))
    (s1 : nx' (pc' a 1) = pc (around n i j k a).1.1 (around n i j k a).1.2)
    (s2 : nx' (pc (around n i j k a).1.1 (around n i j k a).1.2) = pc' a 3) (s3 : nx' (pc' a 3) = pc' a 1)
    (s4 : nx' (pc' a 0) = pc' a 2) (s5 : nx' (pc' a 2) = pc (around n i j k a).2.1 (around n i j k a).2.2)
    (s6 : nx' (pc (around n i j k a).2.1 (around n i j k a).2.2) = pc' a 0) : Tab (n + 1) pc' nx' i j k := by
  have hnij : i ≠ j := by rintro rfl; omega
  have hnik : i ≠ k := by rintro rfl; omega
  have hnjk : j ≠ k := by rintro rfl; omega
  rcases ha with rfl | rfl | rfl
  · -- the first side
    have pj := hp j (.inr (.inl rfl)) hnij.symm; have pk := hp k (.inr (.inr rfl)) hnik.symm
    have e : around n a j k a = ((j, 0), (k, 0)) := by unfold around; rw [if_pos rfl]
    rw [e] at s1 s2 s5 s6
    simp only at s1 s2 s5 s6
    refine ⟨fun h => by omega, fun _ => by rw [pj]; exact s1, fun _ h => by omega, fun _ _ => by rw [pj]; exact ⟨s2, s3⟩, fun _ h => by omega,
      fun _ _ => by rw [pk]; exact ⟨s6, s4, s5⟩⟩
  · -- the second
    have pi := hp i (.inl rfl) hnij; have pk := hp k (.inr (.inr rfl)) hnjk.symm
    have e : around n i a k a = ((i, 3), (i, 1)) := by unfold around; rw [if_neg hnij.symm, if_pos rfl]
    rw [e] at s1 s2 s5 s6
    simp only at s1 s2 s5 s6
    have h' : i / 2 < n := by omega
    have ni : ∀ t, t = 0 ∨ t = 2 → nx' (pc i t) = nx (pc i t) := fun t ht => by
      refine hn i (.inl rfl) t (by omega) (.inr h') ?_ ?_ ?_
      · simp [hnij]
      · rw [e]; simp; omega
      · rw [e]; simp; omega
    have nk : ∀ t, t ≤ 3 → (t = 0 ∨ k / 2 < n) → nx' (pc k t) = nx (pc k t) := fun t h1 h2 => by
      refine hn k (.inr (.inr rfl)) t h1 h2 ?_ ?_ ?_
      · simp [hnjk.symm]
      · rw [e]; simp [hnik.symm]
      · rw [e]; simp [hnik.symm]
    refine ⟨fun h => by omega, fun _ => by rw [pi]; exact s6, fun _ h => ?_, fun _ _ => by omega, fun _ h => ?_, fun _ h => ?_⟩
    · simp only [pi]; exact ⟨s4, s5, s1, s2, s3⟩
    · have g' : k / 2 < n := by omega
      simp only [pi, pk, nk 0 (by omega) (.inl rfl), nk 1 (by omega) (.inr g'), nk 2 (by omega) (.inr g'), nk 3 (by omega) (.inr g'), ni 0 (.inl rfl), ni 2 (.inr rfl)]
      exact T.k1 h' g'
    · simp only [pi, pk, nk 0 (by omega) (.inl rfl), ni 0 (.inl rfl), ni 2 (.inr rfl)]
      exact T.k0 h' (by omega)
  · -- the third
    have pi := hp i (.inl rfl) hnik; have pj := hp j (.inr (.inl rfl)) hnjk
    have e : around n i j a a = ((i, 0), (i, 2)) := by unfold around; rw [if_neg hnik.symm, if_neg hnjk.symm]
    rw [e] at s1 s2 s5 s6
    simp only at s1 s2 s5 s6
    have h' : i / 2 < n := by omega
    have ni : ∀ t, t = 1 ∨ t = 3 → nx' (pc i t) = nx (pc i t) := fun t ht => by
      refine hn i (.inl rfl) t (by omega) (.inr h') ?_ ?_ ?_
      · simp [hnik]
      · rw [e]; simp; omega
      · rw [e]; simp; omega
    have nj : ∀ t, t ≤ 3 → (t = 0 ∨ j / 2 < n) → nx' (pc j t) = nx (pc j t) := fun t h1 h2 => by
      refine hn j (.inr (.inl rfl)) t h1 h2 ?_ ?_ ?_
      · simp [hnjk]
      · rw [e]; simp [hnij.symm]
      · rw [e]; simp [hnij.symm]
    refine ⟨fun h => by omega, fun _ => ?_, fun _ h => ?_, fun _ h => ?_, fun _ h => ?_, fun _ h => by omega⟩
    · rw [pi, pj, ni 1 (.inl rfl)]; exact T.n1 h'
    · have g' : j / 2 < n := by omega
      simp only [pi, pj, nj 0 (by omega) (.inl rfl), nj 1 (by omega) (.inr g'), nj 2 (by omega) (.inr g'), nj 3 (by omega) (.inr g'), ni 1 (.inl rfl), ni 3 (.inr rfl)]
      exact T.j1 h' g'
    · simp only [pi, pj, nj 0 (by omega) (.inl rfl), ni 3 (.inr rfl)]
      exact T.j0 h' (by omega)
    · simp only [pi]; exact ⟨s1, s2, s3, s4, s5, s6⟩

end GC
