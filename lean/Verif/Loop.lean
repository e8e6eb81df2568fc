import Verif.Mesh
import Mathlib.Data.List.Nodup

/-! # Loops and checked arrays

`std::vector` and Eigen vectors are lists; an access outside is `Err.ub`. Loops are `List.foldlM` in `Res`. -/

namespace GC

/-- `a[i]`. -/
def rd {α : Type} (a : List α) (i : ℕ) : Res α :=
  match a[i]? with
  | some x => .ok x
  | none => .error .ub

/-- `a[i] = x`. -/
def wr {α : Type} (a : List α) (i : ℕ) (x : α) : Res (List α) :=
  if i < a.length then .ok (a.set i x) else .error .ub

theorem rd_ok {α : Type} {a : List α} {i : ℕ} {x : α} : rd a i = .ok x ↔ a[i]? = some x := by
  unfold rd; split <;> simp_all

theorem rd_lt {α : Type} {a : List α} {i : ℕ} (h : i < a.length) : rd a i = .ok a[i] := by
  rw [rd_ok, List.getElem?_eq_getElem h]

theorem rd_ge {α : Type} {a : List α} {i : ℕ} (h : a.length ≤ i) : rd a i = .error .ub := by
  unfold rd; rw [List.getElem?_eq_none h]

theorem wr_lt {α : Type} {a : List α} {i : ℕ} (x : α) (h : i < a.length) : wr a i x = .ok (a.set i x) := by
  unfold wr; rw [if_pos h]

/-- Invariant rule for a loop over a list; the invariant speaks about the elements already visited. -/
theorem foldlM_inv {α σ : Type} {f : σ → α → Res σ} {l : List α} (P : List α → σ → Prop) {s0 : σ} (h0 : P [] s0)
    (step : ∀ p x q s, l = p ++ x :: q → P p s → ∃ s', f s x = .ok s' ∧ P (p ++ [x]) s') :
    ∃ s, l.foldlM f s0 = .ok s ∧ P l s := by
  have key : ∀ (q p : List α) (s : σ), l = p ++ q → P p s → ∃ s', q.foldlM f s = .ok s' ∧ P l s' := by
    intro q
    induction q with
    | nil => intro p s h hP; exact ⟨s, rfl, by simpa [h] using hP⟩
    | cons x q ih =>
      intro p s h hP
      obtain ⟨s', e, hP'⟩ := step p x q s h hP
      obtain ⟨s'', e', hP''⟩ := ih (p ++ [x]) s' (by simp [h]) hP'
      refine ⟨s'', ?_, hP''⟩
      rw [List.foldlM_cons, e]; exact e'
  exact key l [] s0 rfl h0

/-- Invariant rule for `for (i = 0; i < n; i++)`. -/
theorem range_inv {σ : Type} {f : σ → ℕ → Res σ} {n : ℕ} (P : ℕ → σ → Prop) {s0 : σ} (h0 : P 0 s0)
    (step : ∀ i s, i < n → P i s → ∃ s', f s i = .ok s' ∧ P (i + 1) s') :
    ∃ s, (List.range n).foldlM f s0 = .ok s ∧ P n s := by
  have := foldlM_inv (f := f) (l := List.range n) (fun p s => P p.length s) (s0 := s0) h0 (by
    intro p x q s h hP
    have hl := congrArg List.length h
    simp at hl
    have hx : x = p.length := by
      have : (List.range n)[p.length]? = some x := by rw [h]; simp
      rw [List.getElem?_range (by omega)] at this
      exact (Option.some.inj this).symm
    obtain ⟨s', e, hP'⟩ := step x s (by omega) (by rw [hx]; exact hP)
    exact ⟨s', e, by simpa [hx] using hP'⟩)
  simpa using this

/-! ### Positions in a filtered range -/

/-- Number of members below `k`. -/
def pos (M : ℕ → Bool) (k : ℕ) : ℕ := ((List.range k).filter M).length

theorem pos_succ (M : ℕ → Bool) (k : ℕ) : pos M (k + 1) = pos M k + (if M k then 1 else 0) := by
  unfold pos
  rw [List.range_succ, List.filter_append, List.length_append]
  congr 1
  cases h : M k <;> simp [List.filter_cons, h]

theorem filter_succ (M : ℕ → Bool) (k : ℕ) :
    (List.range (k + 1)).filter M = (List.range k).filter M ++ (if M k then [k] else []) := by
  rw [List.range_succ, List.filter_append]
  congr 1
  cases h : M k <;> simp [List.filter_cons, h]

theorem pos_mono (M : ℕ → Bool) {a b : ℕ} (h : a ≤ b) : pos M a ≤ pos M b := by
  induction b, h using Nat.le_induction with
  | base => exact le_rfl
  | succ n _ ih => rw [pos_succ]; omega

theorem pos_lt (M : ℕ → Bool) {k n : ℕ} (h : k < n) (hk : M k = true) : pos M k < pos M n := by
  have := pos_mono M (show k + 1 ≤ n from h)
  rw [pos_succ, if_pos hk] at this
  omega

/-- The `i`-th member below `n` is `k` exactly if `k` is a member and there are `i` members before it. -/
theorem filter_range_getElem (M : ℕ → Bool) {n k i : ℕ} (hk : k < n) :
    ((List.range n).filter M)[i]? = some k ↔ M k = true ∧ pos M k = i := by
  have key : ∀ k, k < n → M k = true → ((List.range n).filter M)[pos M k]? = some k := by
    intro k hk hM
    have h1 : ∀ n, k + 1 ≤ n → ((List.range n).filter M)[pos M k]? = some k := by
      intro n hn
      induction n, hn using Nat.le_induction with
      | base =>
        rw [filter_succ, if_pos hM, List.getElem?_append_right (by unfold pos; omega)]
        simp [pos]
      | succ n hn ih =>
        rw [filter_succ, List.getElem?_append_left, ih]
        have := pos_lt M (show k < n by omega) hM
        exact this
    exact h1 n hk
  constructor
  · intro h
    have hm := List.mem_of_getElem? h
    rw [List.mem_filter] at hm
    refine ⟨hm.2, ?_⟩
    have h2 := key k hk hm.2
    have hnd : ((List.range n).filter M).Nodup := List.nodup_range.filter _
    have hi := (List.getElem?_eq_some_iff.1 h)
    have hp := (List.getElem?_eq_some_iff.1 h2)
    exact (List.Nodup.getElem_inj_iff hnd).1 (hp.2.trans hi.2.symm)
  · rintro ⟨hM, rfl⟩
    exact key k hk hM

end GC
