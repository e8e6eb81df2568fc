import Verif.Ring

/-!
# C25: the vertex adjacency lists of a general mesh stay exact
-/

namespace GC.Ring

variable {R : Ring} {A : ℕ → Option ℕ} {V : ℕ → Prop}

theorem Inv.cast (hR : Inv R A V) {A' : ℕ → Option ℕ} {V' : ℕ → Prop} (hA : A = A') (hV : V = V') : Inv R A' V' := by
  subst hA hV; exact hR

theorem Inv.orb_in (hR : Inv R A V) {h h' v : ℕ} (hA : A h = some v) (ho : Orb R.nx h h') : A h' = some v :=
  ho.mem (fun z => A z = some v) hA (fun z hz => hR.nx_in z v hz)

/-- The predecessor. -/
theorem Inv.prev (hR : Inv R A V) {i v : ℕ} (hA : A i = some v) :
    A (R.pv i) = some v ∧ R.nx (R.pv i) = i := by
  obtain ⟨k, hk⟩ := hR.single (R.nx i) i v (hR.nx_in i v hA) hA
  have hk' : R.nx (R.nx^[k] i) = i := by
    rw [← Function.iterate_succ_apply' R.nx, Function.iterate_succ_apply, hk]
  have hq : A (R.nx^[k] i) = some v := hR.orb_in hA ⟨k, rfl⟩
  have := hR.pv_nx _ v hq
  rw [hk'] at this
  rw [this]
  exact ⟨hq, hk'⟩

/-- `next`, made the identity outside the lists. -/
def ex (R : Ring) (A : ℕ → Option ℕ) (h : ℕ) : ℕ := if A h = none then h else R.nx h

theorem ex_in {h v : ℕ} (hA : A h = some v) : ex R A h = R.nx h := by simp [ex, hA]
theorem ex_out {h : ℕ} (hA : A h = none) : ex R A h = h := by simp [ex, hA]

theorem Inv.ex_orb (hR : Inv R A V) {h h' v : ℕ} (hA : A h = some v) : Orb R.nx h h' ↔ Orb (ex R A) h h' := by
  constructor
  · intro ho
    exact (Orb.congr (fun z => A z = some v) hA (fun z hz => hR.nx_in z v hz) (fun z hz => (ex_in hz).symm)).1 ho
  · intro ho
    exact (Orb.congr (fun z => A z = some v) hA (fun z hz => by rw [ex_in hz]; exact hR.nx_in z v hz)
      (fun z hz => ex_in hz)).1 ho

theorem Inv.per (hR : Inv R A V) : Per (ex R A) := by
  intro h
  rcases hA : A h with _ | v
  · exact ⟨0, by simp [ex_out hA]⟩
  · have h1 := hR.nx_in h v hA
    rw [ex_in hA]
    exact (hR.ex_orb h1).1 (hR.single _ _ v h1 hA)

/-- **C25, insertion.**  `addToVertexLists` on a halfedge that is in no list. -/
theorem C25_add (hR : Inv R A V) {i v : ℕ} (hi : A i = none) (hI : i ≠ INV) (hv : V v) :
    Inv (R.add i v) (Function.update A i (some v)) V := by
  have hne : ∀ {h w}, A h = some w → h ≠ i := fun {h w} hA e => by rw [e, hi] at hA; cases hA
  unfold add
  rcases hR.st v hv with ⟨hs, hno⟩ | hs
  · simp only
    rw [if_pos hs]
    have key : ∀ h w, Function.update A i (some v) h = some w → (h = i ∧ w = v) ∨ (h ≠ i ∧ w ≠ v ∧ A h = some w) := by
      intro h w hA
      by_cases e : h = i
      · subst e; rw [Function.update_self] at hA; exact .inl ⟨rfl, (Option.some.inj hA).symm⟩
      · rw [Function.update_of_ne e] at hA
        exact .inr ⟨e, fun k => hno h (k ▸ hA), hA⟩
    refine ⟨by rw [Function.update_of_ne (Ne.symm hI)]; exact hR.inv, ?_, ?_, ?_, ?_⟩
    · intro h w hA
      rcases key h w hA with ⟨rfl, rfl⟩ | ⟨e, _, hA⟩
      · simp
      · simp only
        rw [upd_ne _ _ e, Function.update_of_ne (hne (hR.nx_in h w hA))]; exact hR.nx_in h w hA
    · intro h w hA
      rcases key h w hA with ⟨rfl, rfl⟩ | ⟨e, _, hA⟩
      · simp
      · simp only
        rw [upd_ne _ _ e, upd_ne _ _ (hne (hR.nx_in h w hA))]; exact hR.pv_nx h w hA
    · intro h h' w hA hA'
      rcases key h w hA with ⟨rfl, rfl⟩ | ⟨e, f, hA⟩
      · rcases key h' w hA' with ⟨rfl, -⟩ | ⟨_, f, -⟩
        · exact Orb.refl _ _
        · exact absurd rfl f
      · rcases key h' w hA' with ⟨-, rfl⟩ | ⟨_, _, hA'⟩
        · exact absurd rfl f
        · exact (Orb.congr (fun z => A z = some w) hA (fun z hz => hR.nx_in z w hz)
            (fun z hz => (upd_ne _ _ (hne hz)).symm)).1 (hR.single h h' w hA hA')
    · intro w hw
      by_cases e : w = v
      · subst e; right; simp
      · simp only
        rw [upd_ne _ _ e]
        rcases hR.st w hw with ⟨a, b⟩ | a
        · left
          refine ⟨a, fun h hA => ?_⟩
          rcases key h w hA with ⟨-, f⟩ | ⟨-, -, hA⟩
          · exact e f
          · exact b h hA
        · right; rw [Function.update_of_ne (hne a)]; exact a
  · have hs' : R.st v ≠ INV := fun e => by rw [e, hR.inv] at hs; cases hs
    simp only
    rw [if_neg hs']
    obtain ⟨hp, hpn⟩ := hR.prev hs
    have hpi := hne hp
    have hni := hne hs
    have key : ∀ h w, Function.update A i (some v) h = some w → (h = i ∧ w = v) ∨ (h ≠ i ∧ A h = some w) := by
      intro h w hA
      by_cases e : h = i
      · subst e; rw [Function.update_self] at hA; exact .inl ⟨rfl, (Option.some.inj hA).symm⟩
      · rw [Function.update_of_ne e] at hA; exact .inr ⟨e, hA⟩
    generalize hR' : (⟨upd (upd R.nx (R.pv (R.st v)) i) i (R.st v), upd (upd R.pv i (R.pv (R.st v))) (R.st v) i, R.st⟩ :
      Ring) = R'
    have n1 : R'.nx i = R.st v := by rw [← hR']; simp
    have n2 : R'.nx (R.pv (R.st v)) = i := by rw [← hR']; simp only; rw [upd_ne _ _ hpi]; simp
    have n3 : ∀ h, h ≠ i → h ≠ R.pv (R.st v) → R'.nx h = R.nx h := by
      intro h a b; rw [← hR']; simp only; rw [upd_ne _ _ a, upd_ne _ _ b]
    have p1 : R'.pv (R.st v) = i := by rw [← hR']; simp
    have p2 : R'.pv i = R.pv (R.st v) := by rw [← hR']; simp only; rw [upd_ne _ _ (Ne.symm hni)]; simp
    have p3 : ∀ h, h ≠ i → h ≠ R.st v → R'.pv h = R.pv h := by
      intro h a b; rw [← hR']; simp only; rw [upd_ne _ _ b, upd_ne _ _ a]
    have in' : ∀ h w, Function.update A i (some v) h = some w → Function.update A i (some v) (R'.nx h) = some w := by
      intro h w hA
      rcases key h w hA with ⟨rfl, rfl⟩ | ⟨e, hA⟩
      · rw [n1, Function.update_of_ne hni]; exact hs
      · by_cases f : h = R.pv (R.st v)
        · subst f
          rw [n2]
          rw [hp] at hA
          rw [Function.update_self]; exact hA
        · rw [n3 h e f, Function.update_of_ne (hne (hR.nx_in h w hA))]; exact hR.nx_in h w hA
    refine ⟨by rw [Function.update_of_ne (Ne.symm hI)]; exact hR.inv, in', ?_, ?_, ?_⟩
    · intro h w hA
      rcases key h w hA with ⟨rfl, rfl⟩ | ⟨e, hA⟩
      · rw [n1, p1]
      · by_cases f : h = R.pv (R.st v)
        · subst f; rw [n2, p2]
        · rw [n3 h e f, p3 _ (hne (hR.nx_in h w hA)), hR.pv_nx h w hA]
          intro k
          apply f
          rw [← k, hR.pv_nx h w hA]
    · have hex : ∀ z, Function.update A i (some v) z ≠ none → R'.nx z = swapf (ex R A) (R.pv (R.st v)) i z := by
        intro z hz
        unfold swapf
        by_cases e1 : z = R.pv (R.st v)
        · rw [if_pos e1, e1, n2, ex_out hi]
        rw [if_neg e1]
        by_cases e2 : z = i
        · rw [if_pos e2, e2, n1, ex_in hp, hpn]
        · rw [if_neg e2, n3 z e2 e1]
          rw [Function.update_of_ne e2] at hz
          obtain ⟨w, hw⟩ := Option.ne_none_iff_exists'.1 hz
          rw [ex_in hw]
      have back : ∀ h h' w, Function.update A i (some v) h = some w →
          Orb (swapf (ex R A) (R.pv (R.st v)) i) h h' → Orb R'.nx h h' := by
        intro h h' w hA ho
        refine (Orb.congr (fun z => Function.update A i (some v) z = some w) hA ?_ ?_).1 ho
        · intro z hz; rw [← hex z (by rw [hz]; simp)]; exact in' z w hz
        · intro z hz; exact (hex z (by rw [hz]; simp)).symm
      have hper := hR.per
      have hfix : ex R A i = i := ex_out hi
      intro h h' w hA hA'
      apply back h h' w hA
      rcases key h w hA with ⟨rfl, rfl⟩ | ⟨e, hA1⟩
      · rcases key h' w hA' with ⟨rfl, -⟩ | ⟨e', hA'⟩
        · exact Orb.refl _ _
        · exact (swapf_insert_new hper hfix hpi e').2 ((hR.ex_orb hp).1 (hR.single _ _ _ hp hA'))
      · rcases key h' w hA' with ⟨rfl, rfl⟩ | ⟨e', hA'⟩
        · exact Orb.symm (hper.swapf _ _)
            ((swapf_insert_new hper hfix hpi e).2 ((hR.ex_orb hp).1 (hR.single _ _ _ hp hA1)))
        · exact (swapf_insert hper hfix hpi e e').2 ((hR.ex_orb hA1).1 (hR.single _ _ _ hA1 hA'))
    · intro w hw
      have hst : R'.st = R.st := by rw [← hR']
      rw [hst]
      rcases hR.st w hw with ⟨a, b⟩ | a
      · left
        refine ⟨a, fun h hA => ?_⟩
        rcases key h w hA with ⟨-, rfl⟩ | ⟨-, hA⟩
        · exact hs' a
        · exact b h hA
      · right; rw [Function.update_of_ne (hne a)]; exact a

/-- **C25, removal.**  `removeFromVertexLists` on a halfedge in the list of `v`. -/
theorem C25_remove (hR : Inv R A V) {i v : ℕ} (hi : A i = some v) :
    Inv (R.remove i v) (Function.update A i none) V := by
  have hI : i ≠ INV := fun e => by rw [e, hR.inv] at hi; cases hi
  obtain ⟨hp, hpn⟩ := hR.prev hi
  have key : ∀ h w, Function.update A i none h = some w → h ≠ i ∧ A h = some w := by
    intro h w hA
    by_cases e : h = i
    · subst e; rw [Function.update_self] at hA; cases hA
    · rw [Function.update_of_ne e] at hA; exact ⟨e, hA⟩
  have key' : ∀ h w, h ≠ i → A h = some w → Function.update A i none h = some w := by
    intro h w e hA; rw [Function.update_of_ne e]; exact hA
  generalize hR' : R.remove i v = R'
  unfold remove at hR'
  simp only at hR'
  have st' : R'.st = upd R.st v (if R.pv i = i then INV else R.pv i) := by rw [← hR']
  have inv' : Function.update A i none INV = none := by rw [Function.update_of_ne (Ne.symm hI)]; exact hR.inv
  by_cases hs : R.pv i = i
  · -- the only member
    have hii : R.nx i = i := by rw [hs] at hpn; exact hpn
    have alone : ∀ h, A h = some v → h = i := fun h hA => Orb.eq_of_fix hii (hR.single i h v hi hA)
    have n3 : ∀ h, h ≠ i → R'.nx h = R.nx h := by
      intro h a; rw [← hR']; simp only; rw [upd_ne _ _ a, hs, upd_ne _ _ a]
    have p3 : ∀ h, h ≠ i → R'.pv h = R.pv h := by
      intro h a; rw [← hR']; simp only; rw [upd_ne _ _ a, hii, upd_ne _ _ a]
    have hnn : ∀ h w, h ≠ i → A h = some w → R.nx h ≠ i := by
      intro h w e hA k
      have := hR.pv_nx h w hA
      rw [k, hs] at this
      exact e this.symm
    refine ⟨inv', ?_, ?_, ?_, ?_⟩
    · intro h w hA
      obtain ⟨e, hA⟩ := key h w hA
      rw [n3 h e]
      exact key' _ _ (hnn h w e hA) (hR.nx_in h w hA)
    · intro h w hA
      obtain ⟨e, hA⟩ := key h w hA
      rw [n3 h e, p3 _ (hnn h w e hA)]
      exact hR.pv_nx h w hA
    · intro h h' w hA hA'
      obtain ⟨e, hA⟩ := key h w hA
      obtain ⟨e', hA'⟩ := key h' w hA'
      exact (Orb.congr (fun z => z ≠ i ∧ A z = some w) ⟨e, hA⟩
        (fun z hz => ⟨hnn z w hz.1 hz.2, hR.nx_in z w hz.2⟩) (fun z hz => (n3 z hz.1).symm)).1
        (hR.single h h' w hA hA')
    · intro w hw
      rw [st', if_pos hs]
      by_cases e : w = v
      · subst e
        left
        refine ⟨by simp, fun h hA => ?_⟩
        obtain ⟨f, hA⟩ := key h w hA
        exact f (alone h hA)
      · rw [upd_ne _ _ e]
        rcases hR.st w hw with ⟨a, b⟩ | a
        · exact .inl ⟨a, fun h hA => b h (key h w hA).2⟩
        · refine .inr (key' _ _ (fun k => ?_) a)
          rw [k, hi] at a
          exact e (Option.some.inj a).symm
  · have hn : A (R.nx i) = some v := hR.nx_in i v hi
    have hni : R.nx i ≠ i := by
      intro k
      have := hR.pv_nx i v hi
      rw [k] at this
      exact hs this
    have n2 : R'.nx (R.pv i) = R.nx i := by rw [← hR']; simp only; rw [upd_ne _ _ hs]; simp
    have n3 : ∀ h, h ≠ i → h ≠ R.pv i → R'.nx h = R.nx h := by
      intro h a b; rw [← hR']; simp only; rw [upd_ne _ _ a, upd_ne _ _ b]
    have p2 : R'.pv (R.nx i) = R.pv i := by rw [← hR']; simp only; rw [upd_ne _ _ hni]; simp
    have p3 : ∀ h, h ≠ i → h ≠ R.nx i → R'.pv h = R.pv h := by
      intro h a b; rw [← hR']; simp only; rw [upd_ne _ _ a, upd_ne _ _ b]
    have hnn : ∀ h w, h ≠ R.pv i → A h = some w → R.nx h ≠ i := by
      intro h w e hA k
      have := hR.pv_nx h w hA
      rw [k] at this
      exact e this.symm
    have in' : ∀ h w, h ≠ i → A h = some w → R'.nx h ≠ i ∧ A (R'.nx h) = some w := by
      intro h w e hA
      by_cases f : h = R.pv i
      · subst f
        rw [n2]
        rw [hp] at hA
        exact ⟨hni, hA ▸ hn⟩
      · rw [n3 h e f]
        exact ⟨hnn h w f hA, hR.nx_in h w hA⟩
    refine ⟨inv', ?_, ?_, ?_, ?_⟩
    · intro h w hA
      obtain ⟨e, hA⟩ := key h w hA
      exact key' _ _ (in' h w e hA).1 (in' h w e hA).2
    · intro h w hA
      obtain ⟨e, hA⟩ := key h w hA
      by_cases f : h = R.pv i
      · subst f; rw [n2, p2]
      · rw [n3 h e f, p3 _ (hnn h w f hA), hR.pv_nx h w hA]
        intro k
        apply e
        have := hR.pv_nx h w hA
        rw [k, hR.pv_nx i v hi] at this
        exact this.symm
    · have hex : ∀ z w, z ≠ i → A z = some w → R'.nx z = swapf (ex R A) (R.pv i) i z := by
        intro z w hz hA
        unfold swapf
        by_cases e1 : z = R.pv i
        · rw [if_pos e1, e1, n2, ex_in hi]
        · rw [if_neg e1, if_neg hz, n3 z hz e1, ex_in hA]
      intro h h' w hA hA'
      obtain ⟨e, hA⟩ := key h w hA
      obtain ⟨e', hA'⟩ := key h' w hA'
      have ho := (swapf_remove hR.per (p := R.pv i) (x := i) (by rw [ex_in hp, hpn]) hs e e').2
        ((hR.ex_orb hA).1 (hR.single _ _ _ hA hA'))
      refine (Orb.congr (fun z => z ≠ i ∧ A z = some w) ⟨e, hA⟩ ?_ ?_).1 ho
      · intro z hz; rw [← hex z w hz.1 hz.2]; exact in' z w hz.1 hz.2
      · intro z hz; exact (hex z w hz.1 hz.2).symm
    · intro w hw
      rw [st', if_neg hs]
      by_cases e : w = v
      · subst e
        right
        rw [upd_same]
        exact key' _ _ hs hp
      · rw [upd_ne _ _ e]
        rcases hR.st w hw with ⟨a, b⟩ | a
        · exact .inl ⟨a, fun h hA => b h (key h w hA).2⟩
        · refine .inr (key' _ _ (fun k => ?_) a)
          rw [k, hi] at a
          exact e (Option.some.inj a).symm

/-- **C25, iteration.**  Iterating from any member of the list of `v` yields exactly the members, once
each. -/
theorem C25_iter (hR : Inv R A V) {h v N : ℕ} (hA : A h = some v) (hN : ∀ z, A z ≠ none → z < N) :
    ∃ l, R.iter h N = .ok l ∧ l.Nodup ∧ ∀ z, z ∈ l ↔ A z = some v := by
  obtain ⟨k, hk, hhit, hmin, hok⟩ := Mesh.orbitList_ok (hR.single _ _ v (hR.nx_in h v hA) hA)
    (fun z hz => hN z (by rw [hR.orb_in hA hz]; simp))
  refine ⟨_, hok, Mesh.orbit_range_nodup hhit hmin, fun z => ?_⟩
  rw [Mesh.orbit_range_mem hhit]
  exact ⟨fun ho => hR.orb_in hA ho, fun hz => hR.single h z v hA hz⟩

/-! ### Construction of the lists -/

section
variable {dead : ℕ → Bool} {key : ℕ → ℕ}

/-- The live halfedges below `n` of vertex `v`, in order of their indices. -/
def at_ (dead : ℕ → Bool) (key : ℕ → ℕ) (n v : ℕ) : List ℕ :=
  (List.range n).filter (fun h => !dead h && key h == v)

theorem at_succ (n v : ℕ) : at_ dead key (n + 1) v = at_ dead key n v ++ (if !dead n && key n == v then [n] else []) := by
  unfold at_
  rw [List.range_succ, List.filter_append, List.filter_singleton]
  cases (!dead n && key n == v) <;> rfl

theorem mem_at {n v h : ℕ} : h ∈ at_ dead key n v ↔ h < n ∧ dead h = false ∧ key h = v := by
  simp [at_]

theorem at_nodup (n v : ℕ) : (at_ dead key n v).Nodup := List.nodup_range.filter _

theorem deg_eq (n v : ℕ) : deg dead key n v = (at_ dead key n v).length := by
  unfold deg
  induction n with
  | zero => rfl
  | succ n ih =>
    rw [List.range_succ, List.foldl_append, at_succ]
    simp only [List.foldl_cons, List.foldl_nil, List.length_append]
    generalize (List.range n).foldl _ _ = d at ih ⊢
    by_cases hd : dead n = true
    · simp [hd, ih]
    · by_cases hk : v = key n
      · subst hk; simp [hd, ih]
      · rw [if_neg hd, upd_ne _ _ hk, ih]; simp [hd, Ne.symm hk]

theorem start_le (d : ℕ → ℕ) {v w : ℕ} (h : v < w) : start d v + d v ≤ start d w := by
  induction h with
  | refl => simp [start]
  | step _ ih => simp only [start]; omega

theorem at_len_le {n m v : ℕ} (h : n ≤ m) : (at_ dead key n v).length ≤ (at_ dead key m v).length := by
  induction h with
  | refl => exact le_rfl
  | step _ ih => rw [at_succ, List.length_append]; omega

/-- The cache holds the halfedges of each vertex, in order, from its start entry on. -/
theorem fill_eq {N : ℕ} (n : ℕ) (hn : n ≤ N) (v : ℕ) :
    (fill dead key n (start (deg dead key N))).1 v = start (deg dead key N) v + (at_ dead key n v).length ∧
    ∀ t (ht : t < (at_ dead key n v).length),
      (fill dead key n (start (deg dead key N))).2 (start (deg dead key N) v + t) = (at_ dead key n v)[t] := by
  induction n generalizing v with
  | zero => exact ⟨rfl, fun t ht => absurd ht (by simp [at_])⟩
  | succ n ih =>
    have ih := fun v => ih (by omega) v
    have hle : ∀ w, (at_ dead key n w).length ≤ deg dead key N w := fun w => by
      rw [deg_eq]; exact at_len_le (by omega)
    have hlt : dead n = false → (at_ dead key n (key n)).length < deg dead key N (key n) := fun hd => by
      rw [deg_eq]
      refine lt_of_lt_of_le ?_ (at_len_le (n := n + 1) hn)
      rw [at_succ]; simp [hd]
    unfold fill at ih ⊢
    rw [List.range_succ, List.foldl_append]
    simp only [List.foldl_cons, List.foldl_nil]
    generalize (List.range n).foldl _ _ = p at ih ⊢
    by_cases hd : dead n = true
    · have e : at_ dead key (n + 1) v = at_ dead key n v := by rw [at_succ]; simp [hd]
      simp only [hd, if_true, e]
      exact ih v
    · have hd' : dead n = false := by simpa using hd
      rw [if_neg hd]
      by_cases hk : v = key n
      · have e : at_ dead key (n + 1) v = at_ dead key n v ++ [n] := by rw [at_succ]; simp [hd, hk]
        subst hk
        refine ⟨?_, ?_⟩
        · simp only [upd_same, e, (ih _).1, List.length_append, List.length_singleton]; omega
        · intro t ht
          simp only [e] at ht ⊢
          rw [(ih _).1]
          by_cases h' : t < (at_ dead key n (key n)).length
          · rw [upd_ne _ _ (by omega), (ih _).2 t h', List.getElem_append_left h']
          · have : t = (at_ dead key n (key n)).length := by
              rw [List.length_append, List.length_singleton] at ht; omega
            subst this
            simp
      · have e : at_ dead key (n + 1) v = at_ dead key n v := by rw [at_succ]; simp [Ne.symm hk]
        refine ⟨?_, ?_⟩
        · simp only [upd_ne _ _ hk, e]; exact (ih v).1
        · intro t ht
          simp only [e] at ht ⊢
          rw [upd_ne, (ih v).2 t ht]
          rw [(ih _).1]
          have h1 := hlt hd'
          have h2 := hle v
          rcases Nat.lt_or_gt_of_ne hk with h | h
          · have := start_le (deg dead key N) h; omega
          · have := start_le (deg dead key N) h; omega

end

/-- What `link` writes. -/
theorem link_eq (R : Ring) (cache : ℕ → ℕ) (v a : ℕ) (l : List ℕ) (hl : l.Nodup)
    (hc : ∀ t (ht : t < l.length), cache (a + t) = l[t]) (h0 : 0 < l.length) :
    (R.link cache v a (a + l.length)).st = upd R.st v (l[0]) ∧
    (∀ t (ht : t < l.length), (R.link cache v a (a + l.length)).nx l[t] = l[(t + 1) % l.length]'(Nat.mod_lt _ h0) ∧
      (R.link cache v a (a + l.length)).pv (l[(t + 1) % l.length]'(Nat.mod_lt _ h0)) = l[t]) ∧
    (∀ h, h ∉ l → (R.link cache v a (a + l.length)).nx h = R.nx h ∧ (R.link cache v a (a + l.length)).pv h = R.pv h) := by
  have inj : ∀ i j (hi : i < l.length) (hj : j < l.length), l[i] = l[j] → i = j := fun i j hi hj e =>
    (List.Nodup.getElem_inj_iff hl).1 e
  have modinj : ∀ i j, i < l.length → j < l.length → (i + 1) % l.length = (j + 1) % l.length → i = j := by
    intro i j hi hj e
    rcases Nat.lt_or_ge (i + 1) l.length with h1 | h1 <;> rcases Nat.lt_or_ge (j + 1) l.length with h2 | h2
    · rw [Nat.mod_eq_of_lt h1, Nat.mod_eq_of_lt h2] at e; omega
    · have : j + 1 = l.length := by omega
      rw [Nat.mod_eq_of_lt h1, this, Nat.mod_self] at e; omega
    · have : i + 1 = l.length := by omega
      rw [Nat.mod_eq_of_lt h2, this, Nat.mod_self] at e; omega
    · omega
  have hc' : ∀ t, t < l.length → cache ((t + 1) % l.length + a) = l[(t + 1) % l.length]'(Nat.mod_lt _ h0) := fun t _ => by
    rw [Nat.add_comm, hc _ (Nat.mod_lt _ h0)]
  unfold link
  simp only [Nat.add_sub_cancel_left]
  have main : ∀ n (hn : n ≤ l.length), ∀ R' : Ring, R' = (List.range n).foldl
      (fun R t => { R with
        nx := upd R.nx (cache (a + t)) (cache ((t + 1) % l.length + a))
        pv := upd R.pv (cache ((t + 1) % l.length + a)) (cache (a + t)) })
        ({ R with st := upd R.st v (cache a) } : Ring) →
      R'.st = upd R.st v (cache a) ∧
      (∀ t (ht : t < n), R'.nx (l[t]'(by omega)) = l[(t + 1) % l.length]'(Nat.mod_lt _ h0) ∧
        R'.pv (l[(t + 1) % l.length]'(Nat.mod_lt _ h0)) = l[t]'(by omega)) ∧
      (∀ h, h ∉ l → R'.nx h = R.nx h ∧ R'.pv h = R.pv h) := by
    intro n
    induction n with
    | zero =>
      rintro hn R' rfl
      exact ⟨rfl, fun t ht => absurd ht (by omega), fun h _ => ⟨rfl, rfl⟩⟩
    | succ n ih =>
      rintro hn R' hR'
      rw [List.range_succ, List.foldl_append] at hR'
      simp only [List.foldl_cons, List.foldl_nil] at hR'
      obtain ⟨i1, i2, i3⟩ := ih (by omega) _ rfl
      generalize (List.range n).foldl _ _ = R1 at hR' i1 i2 i3
      rw [hc n (by omega), hc' n (by omega)] at hR'
      subst hR'
      refine ⟨i1, fun t ht => ?_, fun h hh => ?_⟩
      · simp only
        by_cases e : t = n
        · subst e; simp
        · rw [upd_ne _ _ (fun k => e (inj _ _ _ _ k)), upd_ne _ _ (fun k => e (modinj _ _ (by omega) (by omega)
            (inj _ _ (Nat.mod_lt _ h0) (Nat.mod_lt _ h0) k)))]
          exact i2 t (by omega)
      · simp only
        rw [upd_ne _ _ (fun k => hh (by rw [k]; exact List.getElem_mem _)), upd_ne _ _ (fun k => hh (by rw [k]; exact List.getElem_mem _))]
        exact i3 h hh
  obtain ⟨m1, m2, m3⟩ := main l.length le_rfl _ rfl
  refine ⟨?_, m2, m3⟩
  rw [m1, ← hc 0 h0, Nat.add_zero]

/-- Linking a new list of halfedges that are in no list. -/
theorem link_inv (hR : Inv R A V) {cache : ℕ → ℕ} {v a : ℕ} {l : List ℕ} (hl : l.Nodup)
    (hc : ∀ t (ht : t < l.length), cache (a + t) = l[t]) (h0 : 0 < l.length)
    (hfree : ∀ h ∈ l, A h = none ∧ h ≠ INV) (hno : ∀ h, A h ≠ some v) :
    Inv (R.link cache v a (a + l.length)) (fun h => if h ∈ l then some v else A h) (fun w => V w ∨ w = v) := by
  obtain ⟨s1, s2, s3⟩ := link_eq R cache v a l hl hc h0
  generalize R.link cache v a (a + l.length) = R' at s1 s2 s3
  have key : ∀ h w, (if h ∈ l then some v else A h) = some w → (h ∈ l ∧ w = v) ∨ (h ∉ l ∧ w ≠ v ∧ A h = some w) := by
    intro h w hA
    by_cases e : h ∈ l
    · rw [if_pos e] at hA; exact .inl ⟨e, (Option.some.inj hA).symm⟩
    · rw [if_neg e] at hA; exact .inr ⟨e, fun k => hno h (k ▸ hA), hA⟩
  have old : ∀ h w, A h = some w → h ∉ l := fun h w hA hm => by rw [(hfree h hm).1] at hA; cases hA
  refine ⟨?_, ?_, ?_, ?_, ?_⟩
  · rw [if_neg (fun hm => (hfree _ hm).2 rfl)]; exact hR.inv
  · intro h w hA
    rcases key h w hA with ⟨hm, rfl⟩ | ⟨hm, hw, hA⟩
    · obtain ⟨t, ht, rfl⟩ := List.getElem_of_mem hm
      rw [(s2 t ht).1, if_pos (List.getElem_mem _)]
    · rw [(s3 h hm).1, if_neg (old _ _ (hR.nx_in h w hA))]; exact hR.nx_in h w hA
  · intro h w hA
    rcases key h w hA with ⟨hm, rfl⟩ | ⟨hm, hw, hA⟩
    · obtain ⟨t, ht, rfl⟩ := List.getElem_of_mem hm
      rw [(s2 t ht).1, (s2 t ht).2]
    · rw [(s3 h hm).1, (s3 _ (old _ _ (hR.nx_in h w hA))).2]; exact hR.pv_nx h w hA
  · intro h h' w hA hA'
    rcases key h w hA with ⟨hm, rfl⟩ | ⟨hm, hw, hA⟩
    · rcases key h' w hA' with ⟨hm', -⟩ | ⟨-, hw', -⟩
      · obtain ⟨t, ht, rfl⟩ := List.getElem_of_mem hm
        obtain ⟨t', ht', rfl⟩ := List.getElem_of_mem hm'
        -- `t' = (t + k) % length`
        have hk : ∀ k, R'.nx^[k] l[t] = l[(t + k) % l.length]'(Nat.mod_lt _ h0) := by
          intro k
          induction k with
          | zero => simp [Nat.mod_eq_of_lt ht]
          | succ k ih =>
            rw [Function.iterate_succ_apply', ih, (s2 _ (Nat.mod_lt _ h0)).1]
            congr 1
            rw [← Nat.add_assoc, Nat.mod_add_mod]
        refine ⟨t' + l.length - t, ?_⟩
        rw [hk]
        congr 1
        rw [show t + (t' + l.length - t) = t' + l.length by omega, Nat.add_mod_right, Nat.mod_eq_of_lt ht']
      · exact absurd rfl hw'
    · rcases key h' w hA' with ⟨-, rfl⟩ | ⟨hm', -, hA'⟩
      · exact absurd rfl hw
      · exact (Orb.congr (fun z => A z = some w) hA (fun z hz => hR.nx_in z w hz)
          (fun z hz => ((s3 z (old _ _ hz)).1).symm)).1 (hR.single h h' w hA hA')
  · intro w hw
    rw [s1]
    by_cases e : w = v
    · subst e
      right
      rw [upd_same, if_pos (List.getElem_mem _)]
    · rw [upd_ne _ _ e]
      rcases hR.st w (hw.resolve_right e) with ⟨a', b⟩ | a'
      · left
        refine ⟨a', fun h hA => ?_⟩
        rcases key h w hA with ⟨-, f⟩ | ⟨-, -, hA⟩
        · exact e f
        · exact b h hA
      · right; rw [if_neg (old _ _ a')]; exact a'

/-- **C25, construction.**  `initializeHalfedgeNeighbors` builds exact lists from any previous contents,
provided every live vertex has a halfedge. -/
theorem C25_init (R : Ring) {dead vdead : ℕ → Bool} {key : ℕ → ℕ} {nHe nV : ℕ} (hI : nHe ≤ INV)
    (hkey : ∀ h < nHe, dead h = false → key h < nV ∧ vdead (key h) = false)
    (hv : ∀ v < nV, vdead v = false → ∃ h < nHe, dead h = false ∧ key h = v) :
    Inv (R.init dead vdead key nHe nV) (fun h => if h < nHe ∧ dead h = false then some (key h) else none)
      (fun v => v < nV ∧ vdead v = false) := by
  have main : ∀ n, n ≤ nV → Inv ((List.range n).foldl (fun R v => if vdead v then R else
      R.link (fill dead key nHe (start (deg dead key nHe))).2 v (start (deg dead key nHe) v)
        (start (deg dead key nHe) (v + 1))) R)
      (fun h => if h < nHe ∧ dead h = false ∧ key h < n then some (key h) else none)
      (fun v => v < n ∧ vdead v = false) := by
    intro n
    induction n with
    | zero =>
      intro _
      refine ⟨?_, ?_, ?_, ?_, ?_⟩ <;> simp
    | succ n ih =>
      intro hn
      have ih := ih (by omega)
      rw [List.range_succ, List.foldl_append]
      simp only [List.foldl_cons, List.foldl_nil]
      generalize (List.range n).foldl _ _ = R1 at ih ⊢
      by_cases hd : vdead n = true
      · rw [if_pos hd]
        have e1 : (fun h => if h < nHe ∧ dead h = false ∧ key h < n + 1 then some (key h) else none) =
            (fun h => if h < nHe ∧ dead h = false ∧ key h < n then some (key h) else none) := by
          funext h
          congr 1
          apply propext
          constructor
          · rintro ⟨a, b, c⟩
            refine ⟨a, b, ?_⟩
            rcases Nat.lt_succ_iff_lt_or_eq.1 c with c | c
            · exact c
            · have := (hkey h a b).2
              rw [c, hd] at this; cases this
          · rintro ⟨a, b, c⟩; exact ⟨a, b, by omega⟩
        have e2 : (fun v => v < n + 1 ∧ vdead v = false) = (fun v => v < n ∧ vdead v = false) := by
          funext v
          apply propext
          constructor
          · rintro ⟨a, b⟩
            refine ⟨?_, b⟩
            rcases Nat.lt_succ_iff_lt_or_eq.1 a with c | c
            · exact c
            · rw [c, hd] at b; cases b
          · rintro ⟨a, b⟩; exact ⟨by omega, b⟩
        rw [e1, e2]
        exact ih
      · have hd' : vdead n = false := by simpa using hd
        rw [if_neg hd]
        have hlen : start (deg dead key nHe) (n + 1) = start (deg dead key nHe) n + (at_ dead key nHe n).length := by
          rw [start, deg_eq]
        rw [hlen]
        obtain ⟨h0, b0, c0, d0⟩ := hv n (by omega) hd'
        have := link_inv ih (cache := (fill dead key nHe (start (deg dead key nHe))).2)
          (v := n) (a := start (deg dead key nHe) n) (l := at_ dead key nHe n) (at_nodup _ _)
          (fun t ht => (fill_eq nHe le_rfl n).2 t ht)
          (List.length_pos_of_mem (mem_at.2 ⟨b0, c0, d0⟩))
          (fun h hm => by
            obtain ⟨a, b, c⟩ := mem_at.1 hm
            exact ⟨if_neg (by omega), by omega⟩)
          (fun h hA => by
            split_ifs at hA with hh
            have := Option.some.inj hA
            omega)
        refine this.cast ?_ ?_
        · funext h
          by_cases hm : h ∈ at_ dead key nHe n
          · obtain ⟨a, b, c⟩ := mem_at.1 hm
            rw [if_pos hm, if_pos ⟨a, b, by omega⟩, c]
          · rw [if_neg hm]
            congr 1
            apply propext
            constructor
            · rintro ⟨a, b, c⟩; exact ⟨a, b, by omega⟩
            · rintro ⟨a, b, c⟩
              refine ⟨a, b, ?_⟩
              rcases Nat.lt_succ_iff_lt_or_eq.1 c with c | c
              · exact c
              · exact absurd (mem_at.2 ⟨a, b, c⟩) hm
        · funext w
          apply propext
          constructor
          · rintro (⟨a, b⟩ | rfl)
            · exact ⟨by omega, b⟩
            · exact ⟨by omega, hd'⟩
          · rintro ⟨a, b⟩
            by_cases e : w = n
            · exact .inr e
            · exact .inl ⟨by omega, b⟩
  have := main nV le_rfl
  refine this.cast ?_ rfl
  funext h
  congr 1
  apply propext
  constructor
  · rintro ⟨a, b, _⟩; exact ⟨a, b⟩
  · rintro ⟨a, b⟩; exact ⟨a, b, (hkey h a b).1⟩

/-! ### Histories -/

/-- One list operation, with the vertex the halfedge belongs to at that moment. -/
inductive Op
  | add (i v : ℕ)
  | remove (i v : ℕ)

/-- The lists after an operation. -/
def Op.run : Op → Ring → Ring
  | .add i v, R => R.add i v
  | .remove i v, R => R.remove i v

/-- Which vertex's list a halfedge is in after an operation, by the specification. -/
def Op.spec : Op → (ℕ → Option ℕ) → (ℕ → Option ℕ)
  | .add i v, A => fun h => if h = i then some v else A h
  | .remove i _, A => fun h => if h = i then none else A h

/-- The calls the code makes: insertion of a halfedge that is in no list into the list of a live vertex,
removal of a halfedge from the list it is in. -/
def Op.ok (V : ℕ → Prop) : Op → (ℕ → Option ℕ) → Prop
  | .add i v, A => A i = none ∧ i ≠ INV ∧ V v
  | .remove i v, A => A i = some v

/-- All calls of a history are of that form. -/
def Legal (V : ℕ → Prop) : List Op → (ℕ → Option ℕ) → Prop
  | [], _ => True
  | o :: os, A => o.ok V A ∧ Legal V os (o.spec A)

/-- **C25, histories.**  After any sequence of insertions and removals the lists are exact, and iterating
from any halfedge of a vertex yields exactly the halfedges of that vertex, once each. -/
theorem C25 (hR : Inv R A V) (os : List Op) (hl : Legal V os A) :
    Inv (os.foldl (fun R o => o.run R) R) (os.foldl (fun A o => o.spec A) A) V ∧
    ∀ h v N, (os.foldl (fun A o => o.spec A) A) h = some v →
      (∀ z, (os.foldl (fun A o => o.spec A) A) z ≠ none → z < N) →
      ∃ l, (os.foldl (fun R o => o.run R) R).iter h N = .ok l ∧ l.Nodup ∧
        ∀ z, z ∈ l ↔ (os.foldl (fun A o => o.spec A) A) z = some v := by
  have main : Inv (os.foldl (fun R o => o.run R) R) (os.foldl (fun A o => o.spec A) A) V := by
    induction os generalizing R A with
    | nil => exact hR
    | cons o os ih =>
      obtain ⟨h1, h2⟩ := hl
      refine ih ?_ h2
      cases o with
      | add i v =>
        have := C25_add hR h1.1 h1.2.1 h1.2.2
        refine this.cast ?_ rfl
        funext h
        simp only [Op.spec, Function.update_apply]
      | remove i v =>
        have := C25_remove hR h1
        refine this.cast ?_ rfl
        funext h
        simp only [Op.spec, Function.update_apply]
  exact ⟨main, fun h v N hA hN => C25_iter main hA hN⟩

/-- Non-vacuity: six halfedges at three vertices, then one moved to another vertex. -/
example :
    let R := (⟨fun _ => 7, fun _ => 8, fun _ => 0⟩ : Ring).init (fun h => h == 6) (fun _ => false) (fun h => h % 3) 7 3
    Inv R (fun h => if h < 7 ∧ (h == 6) = false then some (h % 3) else none) (fun v => v < 3 ∧ false = false) ∧
    Legal (fun v => v < 3 ∧ false = false) [.remove 4 1, .add 4 2, .remove 1 1, .add 1 1, .remove 1 1]
      (fun h => if h < 7 ∧ (h == 6) = false then some (h % 3) else none) ∧
    ([Op.remove 4 1, .add 4 2].foldl (fun R o => o.run R) R).iter 5 7 = .ok [5, 4, 2] := by
  refine ⟨C25_init _ (by decide) (by decide) (by decide), ?_, by rfl⟩
  simp [Legal, Op.ok, Op.spec, INV]

end GC.Ring
