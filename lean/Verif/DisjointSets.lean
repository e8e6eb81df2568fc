import Verif.Mesh
import Mathlib.Logic.Relation
import Mathlib.Data.Finset.Card
import Mathlib.Data.Finset.Range

/-! # Model of utilities/disjoint_sets

`DisjointSets` (src/utilities/disjoint_sets.cpp:8-35) and `MarkedDisjointSets` (lines 38-84). Ranks are natural
numbers (they would wrap only after 2^64 merges). An access beyond the arrays of `n + 1` entries is
`Err.ub`; unbounded recursion is `Err.hang`. -/

namespace GC

/-- The members of `DisjointSets`, disjoint_sets.h:20-23. -/
structure DS where
  n : ℕ
  parent : ℕ → ℕ
  rank : ℕ → ℕ

namespace DS

/-- Constructor, disjoint_sets.cpp:8-14 (and 38-45). -/
def init (n : ℕ) : DS := ⟨n, fun i => i, fun _ => 0⟩

/-- `find`, disjoint_sets.cpp:17-20 (and 63-66), with bounded recursion depth. -/
def findFuel : ℕ → DS → ℕ → Res (DS × ℕ)
  | 0, _, _ => .error .hang
  | k + 1, d, x =>
    if d.n < x then .error .ub
    else if x ≠ d.parent x then
      match findFuel k d (d.parent x) with
      | .error e => .error e
      | .ok (d1, r) => .ok ({ d1 with parent := upd d1.parent x r }, upd d1.parent x r x)
    else .ok (d, d.parent x)

def find (d : DS) (x : ℕ) : Res (DS × ℕ) := findFuel (d.n + 1) d x

/-- The writes of `merge` once both roots are known, disjoint_sets.cpp:28-34 (and 73-78). -/
def link (d : DS) (x y : ℕ) : DS :=
  { d with
    parent := if d.rank x > d.rank y then upd d.parent y x else upd d.parent x y
    rank := if d.rank x = d.rank y then upd d.rank y (d.rank y + 1) else d.rank }

/-- `merge`, disjoint_sets.cpp:23-35. -/
def merge (d : DS) (x y : ℕ) : Res DS :=
  match d.find x with
  | .error e => .error e
  | .ok (d1, x') => match d1.find y with
    | .error e => .error e
    | .ok (d2, y') => .ok (d2.link x' y')

/-! ## Invariant -/

structure Inv (d : DS) : Prop where
  par_le : ∀ x ≤ d.n, d.parent x ≤ d.n
  rank_lt : ∀ x ≤ d.n, d.parent x = x ∨ d.rank x < d.rank (d.parent x)

/-- The representative of `x`. -/
def root (d : DS) (x : ℕ) : ℕ := d.parent^[d.n] x

/-- Number of elements of larger rank: bounds the length of the path to the root. -/
def mu (d : DS) (x : ℕ) : ℕ := ((Finset.range (d.n + 1)).filter (fun y => d.rank x < d.rank y)).card

variable {d : DS}

theorem mu_le {x : ℕ} (hx : x ≤ d.n) : d.mu x ≤ d.n := by
  unfold mu
  have h1 : ((Finset.range (d.n + 1)).filter (fun y => d.rank x < d.rank y)) ⊆ (Finset.range (d.n + 1)).erase x := by
    intro y hy
    rw [Finset.mem_filter] at hy
    rw [Finset.mem_erase]
    exact ⟨fun e => by subst e; exact lt_irrefl _ hy.2, hy.1⟩
  have h2 := Finset.card_le_card h1
  rw [Finset.card_erase_of_mem (Finset.mem_range.2 (by omega)), Finset.card_range] at h2
  omega

theorem mu_lt {x y : ℕ} (hy : y ≤ d.n) (h : d.rank x < d.rank y) : d.mu y < d.mu x := by
  unfold mu
  apply Finset.card_lt_card
  rw [Finset.ssubset_iff_of_subset]
  · exact ⟨y, Finset.mem_filter.2 ⟨Finset.mem_range.2 (by omega), h⟩, by simp⟩
  · intro z hz
    rw [Finset.mem_filter] at hz ⊢
    exact ⟨hz.1, h.trans hz.2⟩

/-- Induction along the path to the root. -/
theorem Inv.induct (h : d.Inv) {C : ℕ → Prop} (h0 : ∀ x ≤ d.n, d.parent x = x → C x)
    (h1 : ∀ x ≤ d.n, d.parent x ≠ x → d.rank x < d.rank (d.parent x) → C (d.parent x) → C x) : ∀ x ≤ d.n, C x := by
  have key : ∀ k x, x ≤ d.n → d.mu x ≤ k → C x := by
    intro k
    induction k with
    | zero =>
      intro x hx hk
      rcases h.rank_lt x hx with e | e
      · exact h0 x hx e
      · have := mu_lt (h.par_le x hx) e; omega
    | succ k ih =>
      intro x hx hk
      rcases h.rank_lt x hx with e | e
      · exact h0 x hx e
      · refine h1 x hx ?_ e (ih _ (h.par_le x hx) ?_)
        · intro e'; rw [e'] at e; exact lt_irrefl _ e
        · have := mu_lt (h.par_le x hx) e; omega
  exact fun x hx => key _ x hx le_rfl

theorem iterate_of_fixed {f : ℕ → ℕ} {x : ℕ} (h : f x = x) (k : ℕ) : f^[k] x = x := by
  induction k with
  | zero => rfl
  | succ k ih => rw [Function.iterate_succ_apply, h, ih]

theorem Inv.root_fixed' (h : d.Inv) : ∀ k x, x ≤ d.n → d.mu x ≤ k →
    d.parent (d.parent^[k] x) = d.parent^[k] x ∧ d.parent^[k] x ≤ d.n := by
  intro k
  induction k with
  | zero =>
    intro x hx hk
    rcases h.rank_lt x hx with e | e
    · exact ⟨e, hx⟩
    · have := mu_lt (h.par_le x hx) e; omega
  | succ k ih =>
    intro x hx hk
    rw [Function.iterate_succ_apply]
    rcases h.rank_lt x hx with e | e
    · rw [e, iterate_of_fixed e]; exact ⟨e, hx⟩
    · refine ih _ (h.par_le x hx) ?_
      have := mu_lt (h.par_le x hx) e; omega

theorem Inv.root_fixed (h : d.Inv) {x : ℕ} (hx : x ≤ d.n) : d.parent (d.root x) = d.root x :=
  (h.root_fixed' d.n x hx (mu_le hx)).1

theorem Inv.root_le (h : d.Inv) {x : ℕ} (hx : x ≤ d.n) : d.root x ≤ d.n :=
  (h.root_fixed' d.n x hx (mu_le hx)).2

theorem root_of_fixed {x : ℕ} (h : d.parent x = x) : d.root x = x := iterate_of_fixed h _

theorem Inv.root_parent (h : d.Inv) {x : ℕ} (hx : x ≤ d.n) : d.root (d.parent x) = d.root x := by
  unfold root
  rw [← Function.iterate_succ_apply, Function.iterate_succ_apply']
  exact h.root_fixed hx

theorem Inv.root_root (h : d.Inv) {x : ℕ} (hx : x ≤ d.n) : d.root (d.root x) = d.root x :=
  root_of_fixed (h.root_fixed hx)

theorem Inv.rank_le_root (h : d.Inv) : ∀ x ≤ d.n, d.rank x ≤ d.rank (d.root x) := by
  refine h.induct (fun x _ e => by rw [root_of_fixed e]) (fun x hx _ e ih => ?_)
  rw [h.root_parent hx] at ih; omega

/-- Path compression. -/
theorem Inv.compress (h : d.Inv) {x : ℕ} (hx : x ≤ d.n) (hne : d.parent x ≠ x) :
    ({ d with parent := upd d.parent x (d.root x) } : DS).Inv ∧
    ∀ y ≤ d.n, ({ d with parent := upd d.parent x (d.root x) } : DS).root y = d.root y := by
  obtain ⟨d2, hd2⟩ : ∃ d2 : DS, d2 = { d with parent := upd d.parent x (d.root x) } := ⟨_, rfl⟩
  rw [← hd2]
  have hr : d.root x ≠ x := by intro e; have := h.root_fixed hx; rw [e] at this; exact hne this
  have p2 : ∀ y, d2.parent y = if y = x then d.root x else d.parent y := by
    intro y; rw [hd2]; rfl
  have hn : d2.n = d.n := by rw [hd2]
  have hk : d2.rank = d.rank := by rw [hd2]
  have hv : d2.Inv := by
    constructor
    · intro y hy; rw [hn] at *; rw [p2]; split_ifs
      · exact h.root_le hx
      · exact h.par_le y hy
    · intro y hy; rw [hn] at hy; rw [p2, hk]; split_ifs with c
      · right; subst c
        have h1 := (h.rank_lt y hy).resolve_left hne
        have h2 := h.rank_le_root _ (h.par_le y hy)
        rw [h.root_parent hy] at h2; omega
      · exact h.rank_lt y hy
  refine ⟨hv, ?_⟩
  refine h.induct (C := fun y => d2.root y = d.root y) ?_ ?_
  · intro y hy e
    rw [root_of_fixed e, root_of_fixed]
    rw [p2, if_neg (fun c => hne (by rw [← c]; exact e)), e]
  · intro y hy e1 _ ih
    by_cases c : y = x
    · subst c
      rw [← hv.root_parent (by rw [hn]; exact hy), p2, if_pos rfl, root_of_fixed]
      rw [p2, if_neg hr]; exact h.root_fixed hy
    · rw [← hv.root_parent (by rw [hn]; exact hy), p2, if_neg c, ih, h.root_parent hy]

theorem findFuel_spec : ∀ k (d : DS) (x : ℕ), d.Inv → x ≤ d.n → d.mu x < k →
    ∃ d', findFuel k d x = .ok (d', d.root x) ∧ d'.Inv ∧ d'.n = d.n ∧ d'.rank = d.rank ∧
      ∀ y ≤ d.n, d'.root y = d.root y := by
  intro k
  induction k with
  | zero => intro d x _ _ h; omega
  | succ k ih =>
    intro d x hd hx hk
    unfold findFuel
    rw [if_neg (by omega)]
    by_cases c : d.parent x = x
    · rw [if_neg (fun h => h c.symm)]
      exact ⟨d, by rw [root_of_fixed c, c], hd, rfl, rfl, fun _ _ => rfl⟩
    · rw [if_pos (fun h => c h.symm)]
      have hlt := (hd.rank_lt x hx).resolve_left c
      obtain ⟨d1, e, hd1, hn, hr, hroot⟩ := ih d (d.parent x) hd (hd.par_le x hx)
        (by have := mu_lt (hd.par_le x hx) hlt; omega)
      rw [e]; simp only
      rw [hd.root_parent hx, ← hroot x hx]
      by_cases c1 : d1.parent x = x
      · -- cannot happen, but the write would be harmless
        have : d1.root x = x := root_of_fixed c1
        have hu : upd d1.parent x (d1.root x) = d1.parent := by
          funext y; unfold upd; split_ifs with h
          · subst h; rw [this, c1]
          · rfl
        rw [hu]
        exact ⟨d1, by rw [c1, this], hd1, hn, hr, hroot⟩
      · obtain ⟨h1, h2⟩ := hd1.compress (by rw [hn]; exact hx) c1
        exact ⟨_, by simp [upd], h1, hn, hr, fun y hy => by rw [h2 y (by rw [hn]; exact hy), hroot y hy]⟩

theorem find_spec (hd : d.Inv) {x : ℕ} (hx : x ≤ d.n) :
    ∃ d', d.find x = .ok (d', d.root x) ∧ d'.Inv ∧ d'.n = d.n ∧ d'.rank = d.rank ∧
      ∀ y ≤ d.n, d'.root y = d.root y :=
  findFuel_spec _ d x hd hx (by have := mu_le (d := d) hx; omega)

/-- Attaching the root `c` below the root `t`. -/
theorem Inv.attach (h : d.Inv) {c t : ℕ} (hc : c ≤ d.n) (ht : t ≤ d.n) (fc : d.parent c = c) (ft : d.parent t = t)
    (rk : ℕ → ℕ) (hrk : ∀ z, z ≠ t → rk z = d.rank z) (hrt : d.rank t ≤ rk t) (hlt : c ≠ t → d.rank c < rk t) :
    let d2 : DS := { d with parent := upd d.parent c t, rank := rk }
    d2.Inv ∧ ∀ y ≤ d.n, d2.root y = if d.root y = c then t else d.root y := by
  intro d2
  have p2 : ∀ y, d2.parent y = if y = c then t else d.parent y := fun y => rfl
  have hv : d2.Inv := by
    constructor
    · intro y hy; rw [p2]; split_ifs
      · exact ht
      · exact h.par_le y hy
    · intro y hy
      rw [p2]; split_ifs with e
      · subst e
        by_cases k : y = t
        · left; exact k.symm
        · right; show rk y < rk t; rw [hrk y k]; exact hlt k
      · rcases h.rank_lt y hy with e1 | e1
        · exact Or.inl e1
        · right
          show rk y < rk (d.parent y)
          have : y ≠ t := by rintro rfl; rw [ft] at e1; exact lt_irrefl _ e1
          rw [hrk y this]
          by_cases k : d.parent y = t
          · rw [k] at e1 ⊢; omega
          · rw [hrk _ k]; exact e1
  refine ⟨hv, ?_⟩
  refine h.induct (C := fun y => d2.root y = if d.root y = c then t else d.root y) ?_ ?_
  · intro y hy e
    rw [root_of_fixed e]
    split_ifs with k
    · subst k
      rw [← hv.root_parent hy, p2, if_pos rfl, root_of_fixed]
      rw [p2, ft, ite_self]
    · rw [root_of_fixed]; rw [p2, if_neg k, e]
  · intro y hy e1 _ ih
    have k : y ≠ c := by rintro rfl; exact e1 fc
    rw [← hv.root_parent hy, p2, if_neg k, ih, h.root_parent hy]

theorem link_spec (h : d.Inv) {x y : ℕ} (hx : x ≤ d.n) (hy : y ≤ d.n) (fx : d.parent x = x) (fy : d.parent y = y) :
    (d.link x y).Inv ∧ (d.link x y).n = d.n ∧ ∃ r, (r = x ∨ r = y) ∧
      ∀ z ≤ d.n, (d.link x y).root z = if d.root z = x ∨ d.root z = y then r else d.root z := by
  by_cases c : d.rank x > d.rank y
  · obtain ⟨h1, h2⟩ := h.attach hy hx fy fx d.rank (fun _ _ => rfl) le_rfl (fun _ => c)
    have e : d.link x y = { d with parent := upd d.parent y x } := by
      unfold link; rw [if_pos c, if_neg (by omega)]
    rw [e]
    refine ⟨h1, rfl, x, Or.inl rfl, fun z hz => ?_⟩
    rw [h2 z hz]
    split_ifs with a b b
    · rfl
    · exact absurd (Or.inr a) b
    · rcases b with b | b
      · exact b
      · exact absurd b a
    · rfl
  · obtain ⟨h1, h2⟩ := h.attach hx hy fx fy (d.link x y).rank
      (by intro z hz; unfold link; simp only; split_ifs
          · exact if_neg hz
          · rfl)
      (by unfold link; simp only; split_ifs
          · simp [upd]
          · exact le_rfl)
      (by intro hne; unfold link; simp only; split_ifs with k
          · simp [upd]; omega
          · omega)
    have e : d.link x y = { d with parent := upd d.parent x y, rank := (d.link x y).rank } := by
      unfold link; rw [if_neg c]
    rw [e]
    refine ⟨h1, rfl, y, Or.inr rfl, fun z hz => ?_⟩
    rw [h2 z hz]
    split_ifs with a b b
    · rfl
    · exact absurd (Or.inl a) b
    · rcases b with b | b
      · exact absurd b a
      · exact b
    · rfl

theorem merge_spec (hd : d.Inv) {x y : ℕ} (hx : x ≤ d.n) (hy : y ≤ d.n) :
    ∃ d', d.merge x y = .ok d' ∧ d'.Inv ∧ d'.n = d.n ∧ ∃ r, (r = d.root x ∨ r = d.root y) ∧
      ∀ z ≤ d.n, d'.root z = if d.root z = d.root x ∨ d.root z = d.root y then r else d.root z := by
  obtain ⟨d1, e1, h1, n1, _, r1⟩ := find_spec hd hx
  obtain ⟨d2, e2, h2, n2, _, r2⟩ := find_spec h1 (x := y) (by omega)
  unfold merge
  rw [e1]; simp only; rw [e2]; simp only
  rw [r1 y hy]
  have rr : ∀ z ≤ d.n, d2.root z = d.root z := fun z hz => by rw [r2 z (by omega), r1 z hz]
  have fx : ∀ z ≤ d.n, d2.parent (d.root z) = d.root z := by
    intro z hz; rw [← rr z hz]; exact h2.root_fixed (by omega)
  obtain ⟨a, b, r, hr, c⟩ := link_spec h2 (x := d.root x) (y := d.root y) (by have := hd.root_le hx; omega)
    (by have := hd.root_le hy; omega) (fx x hx) (fx y hy)
  refine ⟨_, rfl, a, by omega, r, hr, fun z hz => ?_⟩
  rw [c z (by omega), rr z hz]

theorem init_inv (n : ℕ) : (init n).Inv := ⟨fun _ h => h, fun _ _ => Or.inl rfl⟩

theorem init_root (n x : ℕ) : (init n).root x = x := root_of_fixed rfl

end DS

/-- `MarkedDisjointSets`, disjoint_sets.h:27-53. -/
structure MDS extends DS where
  marked : ℕ → Bool

namespace MDS

/-- Constructor, disjoint_sets.cpp:38-45. -/
def init (n : ℕ) : MDS := { DS.init n with marked := fun _ => false }

/-- `find`, disjoint_sets.cpp:63-66. -/
def find (d : MDS) (x : ℕ) : Res (MDS × ℕ) :=
  match d.toDS.find x with
  | .error e => .error e
  | .ok (d1, r) => .ok ({ d with toDS := d1 }, r)

/-- `mark`, disjoint_sets.cpp:47-50. -/
def mark (d : MDS) (x : ℕ) : Res MDS :=
  match d.find x with
  | .error e => .error e
  | .ok (d1, p) => .ok { d1 with marked := fun i => if i = p then true else d1.marked i }

/-- `unmark`, disjoint_sets.cpp:52-55. -/
def unmark (d : MDS) (x : ℕ) : Res MDS :=
  match d.find x with
  | .error e => .error e
  | .ok (d1, p) => .ok { d1 with marked := fun i => if i = p then false else d1.marked i }

/-- `isMarked`, disjoint_sets.cpp:57-60. -/
def isMarked (d : MDS) (x : ℕ) : Res (MDS × Bool) :=
  match d.find x with
  | .error e => .error e
  | .ok (d1, p) => .ok (d1, d1.marked p)

/-- `merge`, disjoint_sets.cpp:69-84. -/
def merge (d : MDS) (x y : ℕ) : Res MDS :=
  match d.find x with
  | .error e => .error e
  | .ok (d1, x') => match d1.find y with
    | .error e => .error e
    | .ok (d2, y') =>
      .ok { toDS := d2.toDS.link x' y'
            marked := if d2.marked x' || d2.marked y' then
                fun i => if i = y' then true else if i = x' then true else d2.marked i
              else d2.marked }

end MDS
end GC
