import Verif.Mesh

/-! Basic lemmas about twins, array updates, orbits and counts. No code is modelled here. -/

namespace GC

/-! ### twin -/

theorem twin_eq (i : ℕ) : twin i = if i % 2 = 0 then i + 1 else i - 1 := by
  unfold twin
  rcases Nat.mod_two_eq_zero_or_one i with h | h
  · rw [if_pos h]
    obtain ⟨k, rfl⟩ : ∃ k, i = 2 * k := ⟨i / 2, by omega⟩
    apply Nat.eq_of_testBit_eq
    intro j
    rw [Nat.testBit_xor]
    cases j with
    | zero => simp [Nat.testBit_zero]
    | succ j => simp [Nat.testBit_succ]; congr 1; omega
  · rw [if_neg (by omega)]
    obtain ⟨k, rfl⟩ : ∃ k, i = 2 * k + 1 := ⟨i / 2, by omega⟩
    apply Nat.eq_of_testBit_eq
    intro j
    rw [Nat.testBit_xor]
    cases j with
    | zero => simp [Nat.testBit_zero]
    | succ j => simp [Nat.testBit_succ]; congr 1; omega

@[simp] theorem twin_twin (i : ℕ) : twin (twin i) = i := by
  unfold twin; rw [Nat.xor_assoc, Nat.xor_self, Nat.xor_zero]

theorem twin_inj {i j : ℕ} (h : twin i = twin j) : i = j := by
  have := congrArg twin h; simpa using this

@[simp] theorem twin_inj_iff {i j : ℕ} : twin i = twin j ↔ i = j := ⟨twin_inj, congrArg _⟩

theorem twin_ne (i : ℕ) : twin i ≠ i := by
  rw [twin_eq]; split <;> omega

theorem twin_eq_iff {i j : ℕ} : twin i = j ↔ i = twin j := by
  constructor
  · rintro rfl; simp
  · rintro rfl; simp

theorem twin_div (i : ℕ) : twin i / 2 = i / 2 := by
  rw [twin_eq]; split <;> omega

theorem twin_two_mul (e : ℕ) : twin (2 * e) = 2 * e + 1 := by
  rw [twin_eq, if_pos (by omega)]

theorem twin_two_mul_add (e : ℕ) : twin (2 * e + 1) = 2 * e := by
  rw [twin_eq, if_neg (by omega)]; omega

theorem twin_lt_even {i n : ℕ} (h : i < 2 * n) : twin i < 2 * n := by
  rw [twin_eq]; split <;> omega

/-! ### upd -/

@[simp] theorem upd_same (f : ℕ → ℕ) (i v : ℕ) : upd f i v i = v := by simp [upd]

theorem upd_ne (f : ℕ → ℕ) {i j : ℕ} (v : ℕ) (h : j ≠ i) : upd f i v j = f j := by simp [upd, h]

theorem upd_apply (f : ℕ → ℕ) (i v j : ℕ) : upd f i v j = if j = i then v else f j := rfl

/-! ### pigeonhole for loops -/

/-- First return of `f` to a target stays within the number of points it can visit. -/
theorem first_hit {f : ℕ → ℕ} {x y N : ℕ} (h : Orb f x y) (hb : ∀ z, Orb f x z → z < N) :
    ∃ k < N, f^[k] x = y ∧ ∀ j < k, f^[j] x ≠ y := by
  classical
  let k := Nat.find h
  have hk : f^[k] x = y := Nat.find_spec h
  have hmin : ∀ j < k, f^[j] x ≠ y := fun j hj => Nat.find_min h hj
  refine ⟨k, ?_, hk, hmin⟩
  -- the k+1 points are distinct
  have hinj : Set.InjOn (fun j => f^[j] x) (Finset.range (k+1) : Set ℕ) := by
    have key : ∀ a b, a < b → b ≤ k → f^[a] x ≠ f^[b] x := by
      intro a b hab hbk heq
      apply hmin (k - (b - a)) (by omega)
      have e1 : k = (k - b) + b := by omega
      have e2 : k - (b - a) = (k - b) + a := by omega
      rw [e2, Function.iterate_add_apply, heq, ← Function.iterate_add_apply, ← e1, hk]
    intro a ha b hb hab
    simp only [Finset.coe_range, Set.mem_Iio] at ha hb
    rcases Nat.lt_trichotomy a b with h1 | h1 | h1
    · exact absurd hab (key a b h1 (by omega))
    · exact h1
    · exact absurd hab.symm (key b a h1 (by omega))
  have hcard := Finset.card_le_card_of_injOn (s := Finset.range (k+1)) (t := Finset.range N)
    (fun j => f^[j] x) (by
      intro j _
      simp only [Finset.coe_range, Set.mem_Iio]
      exact hb _ ⟨j, rfl⟩) hinj
  simp at hcard
  omega

theorem walkPrev_ok {test adv : ℕ → ℕ} {target fuel cur k : ℕ} (hk : k < fuel)
    (hhit : test (adv^[k] cur) = target) (hmin : ∀ j < k, test (adv^[j] cur) ≠ target) :
    walkPrev test adv target fuel cur = .ok (adv^[k] cur) := by
  induction fuel generalizing cur k with
  | zero => omega
  | succ n ih =>
    unfold walkPrev
    cases k with
    | zero => simp at hhit; simp [hhit]
    | succ k =>
      have h0 : test cur ≠ target := hmin 0 (by omega)
      rw [if_neg h0]
      rw [Function.iterate_succ_apply] at hhit ⊢
      exact ih (by omega) hhit (fun j hj => by
        have := hmin (j+1) (by omega); rwa [Function.iterate_succ_apply] at this)

theorem orbitAux_ok {f : ℕ → ℕ} {start fuel cur k : ℕ} (hk : k < fuel)
    (hhit : f^[k+1] cur = start) (hmin : ∀ j < k, f^[j+1] cur ≠ start) :
    orbitAux f start fuel cur = .ok ((List.range (k+1)).map (fun j => f^[j] cur)) := by
  induction fuel generalizing cur k with
  | zero => omega
  | succ n ih =>
    unfold orbitAux
    cases k with
    | zero => simp at hhit; simp [hhit]
    | succ k =>
      have h0 : f cur ≠ start := hmin 0 (by omega)
      rw [if_neg h0]
      have := ih (cur := f cur) (k := k) (by omega)
        (by rw [Function.iterate_succ_apply] at hhit; exact hhit)
        (fun j hj => by
          have := hmin (j+1) (by omega); rwa [Function.iterate_succ_apply] at this)
      rw [this]
      simp only [Except.ok.injEq]
      rw [List.range_succ_eq_map (n := k+1), List.map_cons, List.map_map]
      congr 1

theorem relabel_ok {next : ℕ → ℕ} {stop val fuel cur k : ℕ} {arr : ℕ → ℕ} (hk : k < fuel)
    (hhit : next^[k] cur = stop) (hmin : ∀ j < k, next^[j] cur ≠ stop) :
    ∃ arr', relabel next stop val fuel cur arr = .ok arr' ∧
      ∀ i, arr' i = if (∃ j < k, next^[j] cur = i) then val else arr i := by
  classical
  induction fuel generalizing cur k arr with
  | zero => omega
  | succ n ih =>
    unfold relabel
    cases k with
    | zero => simp at hhit; simp [hhit]
    | succ k =>
      have h0 : cur ≠ stop := hmin 0 (by omega)
      rw [if_neg h0]
      rw [Function.iterate_succ_apply] at hhit
      obtain ⟨arr', h1, h2⟩ := ih (cur := next cur) (k := k) (arr := upd arr cur val) (by omega) hhit
        (fun j hj => by
          have := hmin (j+1) (by omega); rwa [Function.iterate_succ_apply] at this)
      refine ⟨arr', h1, fun i => ?_⟩
      rw [h2 i]
      by_cases hi : ∃ j < k + 1, next^[j] cur = i
      · rw [if_pos hi]
        obtain ⟨j, hj, hji⟩ := hi
        cases j with
        | zero =>
          simp at hji; subst hji
          split
          · rfl
          · simp
        | succ j =>
          rw [if_pos ⟨j, by omega, by rw [← Function.iterate_succ_apply]; exact hji⟩]
      · rw [if_neg hi, if_neg]
        · rw [upd_ne]
          rintro rfl; exact hi ⟨0, by omega, rfl⟩
        · rintro ⟨j, hj, hji⟩
          exact hi ⟨j+1, by omega, by rw [Function.iterate_succ_apply]; exact hji⟩

/-! ### counts -/

theorem count_congr {p q : ℕ → Prop} [DecidablePred p] [DecidablePred q] {n : ℕ}
    (h : ∀ i < n, (p i ↔ q i)) : Nat.count p n = Nat.count q n := by
  induction n with
  | zero => simp
  | succ n ih =>
    rw [Nat.count_succ, Nat.count_succ, ih (fun i hi => h i (by omega))]
    simp only [h n (by omega)]

/-- Changing one index from out to in adds one. -/
theorem count_add_one {p q : ℕ → Prop} [DecidablePred p] [DecidablePred q] {n a : ℕ} (ha : a < n)
    (hp : ¬ p a) (hq : q a) (h : ∀ i < n, i ≠ a → (p i ↔ q i)) :
    Nat.count q n = Nat.count p n + 1 := by
  induction n with
  | zero => omega
  | succ n ih =>
    rw [Nat.count_succ, Nat.count_succ]
    by_cases hn : a = n
    · subst hn
      rw [count_congr (p := q) (q := p) (fun i hi => (h i (by omega) (by omega)).symm)]
      simp [hp, hq]
    · rw [ih (by omega) (fun i hi => h i (by omega))]
      simp only [h n (by omega) (by omega)]
      omega

end GC
