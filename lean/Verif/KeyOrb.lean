import Verif.Orbit
import Verif.Ring

/-!
# Keyed cycles

`KeyOrb f A`: the elements `h` with `A h = some v` form exactly one cycle of `f`, for each key `v`.  The
faces (cycles of `next`) and edges (cycles of `sibling`) of a general mesh are of this form.
-/

namespace GC

/-- For each key, the elements with that key form one cycle. -/
structure KeyOrb (f : ℕ → ℕ) (A : ℕ → Option ℕ) : Prop where
  mem : ∀ h v, A h = some v → A (f h) = some v
  orb : ∀ h h' v, A h = some v → A h' = some v → Orb f h h'

namespace KeyOrb
variable {f : ℕ → ℕ} {A : ℕ → Option ℕ}

theorem mem_orb (hk : KeyOrb f A) {h h' v : ℕ} (hA : A h = some v) (ho : Orb f h h') : A h' = some v :=
  ho.mem (fun z => A z = some v) hA (fun z hz => hk.mem z v hz)

/-- `f`, made the identity where there is no key. -/
def ex (f : ℕ → ℕ) (A : ℕ → Option ℕ) (h : ℕ) : ℕ := if A h = none then h else f h

theorem ex_in {h v : ℕ} (hA : A h = some v) : ex f A h = f h := by simp [ex, hA]
theorem ex_out {h : ℕ} (hA : A h = none) : ex f A h = h := by simp [ex, hA]

theorem ex_orb (hk : KeyOrb f A) {h h' v : ℕ} (hA : A h = some v) : Orb f h h' ↔ Orb (ex f A) h h' :=
  Orb.congr (fun z => A z = some v) hA (fun z hz => hk.mem z v hz) (fun _ hz => (ex_in hz).symm)

theorem per (hk : KeyOrb f A) : Per (ex f A) := by
  intro h
  rcases hA : A h with _ | v
  · exact ⟨0, by simp [ex_out hA]⟩
  · have h1 := hk.mem h v hA
    rw [ex_in hA]
    exact (hk.ex_orb h1).1 (hk.orb _ _ v h1 hA)

theorem inj (hk : KeyOrb f A) {h h' : ℕ} (hA : A h ≠ none) (hA' : A h' ≠ none) (e : f h = f h') : h = h' := by
  obtain ⟨v, hv⟩ := Option.ne_none_iff_exists'.1 hA
  obtain ⟨v', hv'⟩ := Option.ne_none_iff_exists'.1 hA'
  exact hk.per.inj (by rw [ex_in hv, ex_in hv', e])

/-- Every element has a predecessor in its cycle. -/
theorem pred (hk : KeyOrb f A) {i v : ℕ} (hA : A i = some v) : ∃ q, A q = some v ∧ f q = i := by
  obtain ⟨k, hk'⟩ := hk.orb (f i) i v (hk.mem i v hA) hA
  refine ⟨f^[k] i, hk.mem_orb hA ⟨k, rfl⟩, ?_⟩
  rw [← Function.iterate_succ_apply' f, Function.iterate_succ_apply, hk']

theorem congr (hk : KeyOrb f A) {g : ℕ → ℕ} (hg : ∀ h, A h ≠ none → g h = f h) : KeyOrb g A := by
  refine ⟨fun h v hA => ?_, fun h h' v hA hA' => ?_⟩
  · rw [hg h (by rw [hA]; simp)]; exact hk.mem h v hA
  · exact (Orb.congr (fun z => A z = some v) hA (fun z hz => hk.mem z v hz)
      (fun z hz => (hg z (by rw [hz]; simp)).symm)).1 (hk.orb h h' v hA hA')

theorem cast (hk : KeyOrb f A) {A' : ℕ → Option ℕ} (h : A = A') : KeyOrb f A' := h ▸ hk

/-- Insert `x` after `p`. -/
theorem insert (hk : KeyOrb f A) {p x v : ℕ} (hx : A x = none) (hp : A p = some v) :
    KeyOrb (upd (upd f p x) x (f p)) (Function.update A x (some v)) := by
  have hpx : p ≠ x := fun e => by rw [e, hx] at hp; cases hp
  have hne : ∀ {h w}, A h = some w → h ≠ x := fun {h w} hA e => by rw [e, hx] at hA; cases hA
  have hfp := hk.mem p v hp
  have key : ∀ h w, Function.update A x (some v) h = some w → (h = x ∧ w = v) ∨ (h ≠ x ∧ A h = some w) := by
    intro h w hA
    by_cases e : h = x
    · subst e; rw [Function.update_self] at hA; exact .inl ⟨rfl, (Option.some.inj hA).symm⟩
    · rw [Function.update_of_ne e] at hA; exact .inr ⟨e, hA⟩
  have n1 : (upd (upd f p x) x (f p)) x = f p := upd_same _ _ _
  have n2 : (upd (upd f p x) x (f p)) p = x := by rw [upd_ne _ _ hpx, upd_same]
  have n3 : ∀ h, h ≠ x → h ≠ p → (upd (upd f p x) x (f p)) h = f h := fun h a b => by
    rw [upd_ne _ _ a, upd_ne _ _ b]
  generalize upd (upd f p x) x (f p) = g at n1 n2 n3 ⊢
  have in' : ∀ h w, Function.update A x (some v) h = some w → Function.update A x (some v) (g h) = some w := by
    intro h w hA
    rcases key h w hA with ⟨rfl, rfl⟩ | ⟨e, hA⟩
    · rw [n1, Function.update_of_ne (hne hfp)]; exact hfp
    · by_cases e' : h = p
      · subst e'; rw [n2, Function.update_self]; rw [hp] at hA; exact hA
      · rw [n3 h e e', Function.update_of_ne (hne (hk.mem h w hA))]; exact hk.mem h w hA
  refine ⟨in', ?_⟩
  have hex : ∀ z, Function.update A x (some v) z ≠ none → g z = swapf (ex f A) p x z := by
    intro z hz
    unfold swapf
    by_cases e1 : z = p
    · rw [if_pos e1, e1, n2, ex_out hx]
    rw [if_neg e1]
    by_cases e2 : z = x
    · rw [if_pos e2, e2, n1, ex_in hp]
    · rw [if_neg e2, n3 z e2 e1]
      rw [Function.update_of_ne e2] at hz
      obtain ⟨w, hw⟩ := Option.ne_none_iff_exists'.1 hz
      rw [ex_in hw]
  have hper := hk.per
  have hfix : ex f A x = x := ex_out hx
  intro h h' w hA hA'
  refine (Orb.congr (fun z => Function.update A x (some v) z = some w) hA ?_ ?_).1
    (?_ : Orb (swapf (ex f A) p x) h h')
  · intro z hz; rw [← hex z (by rw [hz]; simp)]; exact in' z w hz
  · intro z hz; exact (hex z (by rw [hz]; simp)).symm
  rcases key h w hA with ⟨rfl, rfl⟩ | ⟨e, hA1⟩
  · rcases key h' w hA' with ⟨rfl, -⟩ | ⟨e', hA'⟩
    · exact Orb.refl _ _
    · exact (swapf_insert_new hper hfix hpx e').2 ((hk.ex_orb hp).1 (hk.orb _ _ _ hp hA'))
  · rcases key h' w hA' with ⟨rfl, rfl⟩ | ⟨e', hA'⟩
    · exact Orb.symm (hper.swapf _ _)
        ((swapf_insert_new hper hfix hpx e).2 ((hk.ex_orb hp).1 (hk.orb _ _ _ hp hA1)))
    · exact (swapf_insert hper hfix hpx e e').2 ((hk.ex_orb hA1).1 (hk.orb _ _ _ hA1 hA'))

/-- Take `x` out, `p` being its predecessor. -/
theorem remove (hk : KeyOrb f A) {p x v : ℕ} (hx : A x = some v) (hp : A p = some v) (hpx : f p = x) (hne : p ≠ x) :
    KeyOrb (upd f p (f x)) (Function.update A x none) := by
  have hfx := hk.mem x v hx
  have key : ∀ h w, Function.update A x none h = some w → h ≠ x ∧ A h = some w := by
    intro h w hA
    by_cases e : h = x
    · subst e; rw [Function.update_self] at hA; cases hA
    · rw [Function.update_of_ne e] at hA; exact ⟨e, hA⟩
  have hfxx : f x ≠ x := fun e => hne (hk.inj (by rw [hp]; simp) (by rw [hx]; simp) (by rw [hpx, e]))
  have n2 : upd f p (f x) p = f x := upd_same _ _ _
  have n3 : ∀ h, h ≠ p → upd f p (f x) h = f h := fun h a => upd_ne _ _ a
  generalize upd f p (f x) = g at n2 n3 ⊢
  have in' : ∀ h w, h ≠ x → A h = some w → g h ≠ x ∧ A (g h) = some w := by
    intro h w e hA
    by_cases e' : h = p
    · subst e'; rw [n2]; rw [hp] at hA; exact ⟨hfxx, hA ▸ hfx⟩
    · rw [n3 h e']
      exact ⟨fun k => e' (hk.inj (by rw [hA]; simp) (by rw [hp]; simp) (by rw [k, hpx])), hk.mem h w hA⟩
  refine ⟨fun h w hA => ?_, ?_⟩
  · obtain ⟨e, hA⟩ := key h w hA
    obtain ⟨a, b⟩ := in' h w e hA
    rw [Function.update_of_ne a]; exact b
  · intro h h' w hA hA'
    obtain ⟨e, hA⟩ := key h w hA
    obtain ⟨e', hA'⟩ := key h' w hA'
    have hex : ∀ z, z ≠ x → A z = some w → g z = swapf (ex f A) p x z := by
      intro z hz hA
      unfold swapf
      by_cases e1 : z = p
      · rw [if_pos e1, e1, n2, ex_in hx]
      · rw [if_neg e1, if_neg hz, n3 z e1, ex_in hA]
    have ho := (swapf_remove hk.per (p := p) (x := x) (by rw [ex_in hp, hpx]) hne e e').2
      ((hk.ex_orb hA).1 (hk.orb _ _ _ hA hA'))
    refine (Orb.congr (fun z => z ≠ x ∧ A z = some w) ⟨e, hA⟩ ?_ ?_).1 ho
    · intro z hz; rw [← hex z hz.1 hz.2]; exact in' z w hz.1 hz.2
    · intro z hz; exact (hex z hz.1 hz.2).symm

/-- Reverse the cycles of some keys. -/
theorem reverse (hk : KeyOrb f A) (s : ℕ → Prop) {g : ℕ → ℕ}
    (hin : ∀ h v, A h = some v → s v → g (f h) = h)
    (hout : ∀ h v, A h = some v → ¬ s v → g h = f h) : KeyOrb g A := by
  refine ⟨fun h v hA => ?_, fun h h' v hA hA' => ?_⟩
  · by_cases hs : s v
    · obtain ⟨q, hq, hqh⟩ := hk.pred hA
      rw [← hqh, hin q v hq hs]; exact hq
    · rw [hout h v hA hs]; exact hk.mem h v hA
  · by_cases hs : s v
    · refine (hk.orb h' h v hA' hA).induct' (fun z => Orb g z h') (Orb.refl _ _) ?_
      intro z hz ho
      have hz' := hk.mem_orb hA' hz
      have := Orb.step g (f z)
      rw [hin z v hz' hs] at this
      exact this.trans ho
    · exact (Orb.congr (fun z => A z = some v) hA (fun z hz => hk.mem z v hz)
        (fun z hz => (hout z v hz hs).symm)).1 (hk.orb h h' v hA hA')

/-- Iterating one cycle. -/
theorem iter (hk : KeyOrb f A) {h v N : ℕ} (hA : A h = some v) (hN : ∀ z, A z ≠ none → z < N) :
    ∃ l, orbitList f h N = .ok l ∧ l.Nodup ∧ (∀ z, z ∈ l ↔ A z = some v) ∧
      ∃ k, k + 1 ≤ N ∧ l = (List.range (k + 1)).map (fun j => f^[j] h) ∧ f^[k + 1] h = h := by
  obtain ⟨k, hkN, hhit, hmin, hok⟩ := Mesh.orbitList_ok (hk.orb _ _ v (hk.mem h v hA) hA)
    (fun z hz => hN z (by rw [hk.mem_orb hA hz]; simp))
  refine ⟨_, hok, Mesh.orbit_range_nodup hhit hmin, fun z => ?_, k, hkN, rfl, hhit⟩
  rw [Mesh.orbit_range_mem hhit]
  exact ⟨fun ho => hk.mem_orb hA ho, fun hz => hk.orb h z v hA hz⟩

end KeyOrb

end GC
