import Verif.SubdivideEdges
import Verif.Props.Nav

/-! # One iteration of the loop over the faces in subdivide.cpp -/

namespace GC
open Mesh

theorem pr_eq {d k : ℕ} (hk : k < d) : pr d k = if k = 0 then d - 1 else k - 1 := by
  cases k with
  | zero => rw [pr_zero (by omega)]; simp
  | succ k => rw [pr_succ hk]; simp

theorem pr_inj {d j k : ℕ} (hj : j < d) (hk : k < d) (h : pr d j = pr d k) : j = k := by
  rw [pr_eq hj, pr_eq hk] at h; split_ifs at h <;> omega

/-- After a vertex was put into the face `f` of `m0`, giving `m'`, and the spokes in `R` were removed, giving `r`. -/
structure RInv (m0 m' r : Mesh) (f d : ℕ) (b : ℕ → ℕ) (R : ℕ → Prop) : Prop where
  valid : r.Valid
  live : ∀ i, r.heLive i ↔ m'.heLive i ∧ ¬ ∃ k < d, R k ∧ (i = m0.nHeFill + 2 * k ∨ i = m0.nHeFill + 2 * k + 1)
  nb_r : ∀ k < d, R k → r.heNext (b k) = b (k + 1)
  nb : ∀ k < d, ¬ R k → r.heNext (b k) = m0.nHeFill + 2 * k
  nq : ∀ k < d, ¬ R k → r.heNext (m0.nHeFill + 2 * k + 1) = b (k + 1)
  nl : ∀ k < d, ¬ R k → ¬ R (pr d k) → r.heNext (m0.nHeFill + 2 * k) = m0.nHeFill + 2 * pr d k + 1
  nl_r : ∀ k < d, ¬ R k → R (pr d k) → r.heNext (m0.nHeFill + 2 * k) = m0.nHeFill + 2 * pr d (pr d k) + 1
  no : ∀ i, m0.heLive i → (∀ k < d, i ≠ b k) → r.heNext i = m0.heNext i
  v : ∀ i, r.heLive i → r.heVertex i = m'.heVertex i
  f_o : ∀ i, r.heLive i → (∀ k < d, m'.heFace i ≠ m0.fanFace f k) → r.heFace i = m'.heFace i
  f_n : ∀ i, r.heLive i → ∀ k < d, m'.heFace i = m0.fanFace f k → ¬ R (pr d k) → r.heFace i = m0.fanFace f k
  f_r : ∀ i, r.heLive i → ∀ k < d, m'.heFace i = m0.fanFace f k → R (pr d k) → r.heFace i = m0.fanFace f (pr d k)
  ext : ∀ i, r.heLive i → (r.ext i ↔ m'.ext i)
  fh : ∀ g, (∀ k < d, g ≠ m0.fanFace f k) → r.fHalfedge g = m'.fHalfedge g
  heFill : r.nHeFill = m'.nHeFill
  vFill : r.nVFill = m'.nVFill
  fFill : r.nFFill = m'.nFFill
  fCap : r.nFCap = m'.nFCap
  blFill : r.nBLFill = m'.nBLFill
  c_v : r.nV = m'.nV
  c_bl : r.nBL = m'.nBL
  c_fe : r.nF + m'.nE = m'.nF + r.nE

section
variable {m0 m' r : Mesh} {f d : ℕ} {b : ℕ → ℕ} {R T : ℕ → Prop}

theorem fan_lt (S : IvSpec m0 m' f d b) {k : ℕ} (hk : k < d) : m0.fanFace f k < m'.nFFill := by
  have := S.hint; have := S.c_fFill
  unfold fanFace; split_ifs <;> omega

theorem RInv.zero (hv : m0.Valid) (S : IvSpec m0 m' f d b) : RInv m0 m' m' f d b (fun _ => False) := by
  have h := iv_valid hv S
  exact {
    valid := h, live := by simp
    nb_r := fun _ _ h => h.elim, nb := fun k hk _ => S.next_b k hk, nq := fun k hk _ => S.next_q k hk
    nl := fun k hk _ _ => S.next_l k hk, nl_r := fun _ _ _ h => h.elim, no := fun i hi h => S.next_o i hi.1 h
    v := fun _ _ => rfl, f_o := fun _ _ _ => rfl, f_n := fun _ _ _ _ h _ => h, f_r := fun _ _ _ _ _ h => h.elim
    ext := fun _ _ => Iff.rfl, fh := fun _ _ => rfl, heFill := rfl, vFill := rfl, fFill := rfl, fCap := rfl, blFill := rfl
    c_v := rfl, c_bl := rfl, c_fe := rfl }

theorem RInv.congr {R' : ℕ → Prop} (I : RInv m0 m' r f d b R) (h : ∀ k < d, R k ↔ R' k) : RInv m0 m' r f d b R' := by
  have hp : ∀ k < d, R (pr d k) ↔ R' (pr d k) := fun k hk => h _ (pr_lt (by omega))
  exact {
    valid := I.valid
    live := fun i => by
      rw [I.live]
      refine and_congr_right fun _ => not_congr ⟨?_, ?_⟩
      · rintro ⟨k, hk, a, c⟩; exact ⟨k, hk, (h k hk).1 a, c⟩
      · rintro ⟨k, hk, a, c⟩; exact ⟨k, hk, (h k hk).2 a, c⟩
    nb_r := fun k hk a => I.nb_r k hk ((h k hk).2 a), nb := fun k hk a => I.nb k hk (fun c => a ((h k hk).1 c))
    nq := fun k hk a => I.nq k hk (fun c => a ((h k hk).1 c))
    nl := fun k hk a e => I.nl k hk (fun c => a ((h k hk).1 c)) (fun c => e ((hp k hk).1 c))
    nl_r := fun k hk a e => I.nl_r k hk (fun c => a ((h k hk).1 c)) ((hp k hk).2 e)
    no := I.no, v := I.v, f_o := I.f_o
    f_n := fun i hi k hk e a => I.f_n i hi k hk e (fun c => a ((hp k hk).1 c))
    f_r := fun i hi k hk e a => I.f_r i hi k hk e ((hp k hk).2 a)
    ext := I.ext, fh := I.fh, heFill := I.heFill, vFill := I.vFill, fFill := I.fFill, fCap := I.fCap, blFill := I.blFill
    c_v := I.c_v, c_bl := I.c_bl, c_fe := I.c_fe }

theorem RInv.step (hv : m0.Valid) (S : IvSpec m0 m' f d b) (alt : ∀ k < d, T k ↔ ¬ T (pr d k)) (hRT : ∀ k, R k → T k)
    (I : RInv m0 m' r f d b R) {k : ℕ} (hk : k < d) (hT : T k) (hR : ¬ R k) :
    ∃ r', r.removeEdge ((m0.nHeFill + 2 * k) / 2) = .ok (r', m0.fanFace f k) ∧ RInv m0 m' r' f d b (fun j => R j ∨ j = k) := by
  have hval' := iv_valid hv S
  have hd := S.hd
  have fill := hv.he_fill
  have hE : 2 * ((m0.nHeFill + 2 * k) / 2) = m0.nHeFill + 2 * k := by omega
  have lv := S.live hv
  have nT : ¬ T (pr d k) := (alt k hk).1 hT
  have nRp : ¬ R (pr d k) := fun h => nT (hRT _ h)
  obtain ⟨j, hj, ej⟩ := pr_surj hk
  have jk : j ≠ k := fun h => nT (by rw [show pr d k = k by rw [← h] at ej ⊢; exact ej]; exact hT)
  have lA' : m'.heLive (m0.nHeFill + 2 * k) := (lv _).2 (.inr ⟨k, hk, .inl rfl⟩)
  have nrem : ∀ {x}, (x = m0.nHeFill + 2 * k ∨ x = m0.nHeFill + 2 * k + 1) →
      ¬ ∃ k < d, R k ∧ (x = m0.nHeFill + 2 * k ∨ x = m0.nHeFill + 2 * k + 1) := by
    rintro x hx ⟨k', _, hr, hx'⟩
    have : k' = k := by omega
    exact hR (this ▸ hr)
  have lA : r.heLive (m0.nHeFill + 2 * k) := (I.live _).2 ⟨lA', nrem (.inl rfl)⟩
  have lB : r.heLive (m0.nHeFill + 2 * k + 1) := (I.live _).2 ⟨(lv _).2 (.inr ⟨k, hk, .inr rfl⟩), nrem (.inr rfl)⟩
  have fA : r.heFace (m0.nHeFill + 2 * k) = m0.fanFace f k := I.f_n _ lA k hk (S.f_l k hk) nRp
  have fB : r.heFace (m0.nHeFill + 2 * k + 1) = m0.fanFace f j :=
    I.f_n _ lB j hj (by rw [← S.f_q j hj, ej]) (by rw [ej]; exact hR)
  have fne : m0.fanFace f k ≠ m0.fanFace f j := fun h => jk (fanFace_inj S.hint h).symm
  rcases rem_spec I.valid (e := (m0.nHeFill + 2 * k) / 2) (by rw [hE]; exact lA) with ⟨h, -⟩ | ⟨h, -⟩ | ⟨-, r', h, Q⟩
  · rw [hE] at h; unfold Mesh.ext at h; rw [fB, I.fFill] at h; have := fan_lt S hj; omega
  · rw [hE, fA, fB] at h; exact (fne h).elim
  rw [hE] at Q h
  rw [fA] at h
  refine ⟨r', h, ?_⟩
  obtain ⟨val, hext, c1, c2, c3⟩ := rem_valid I.valid Q
  have hl := Q.live I.valid
  have bK : ∀ j, j < d → b j < m0.nHeFill := fun j hj => (S.b_live hj).1.1
  have bK1 : ∀ j, j < d → b (j + 1) < m0.nHeFill := fun j hj => by
    obtain ⟨i, hi, e⟩ := S.b_succ_mem hj; rw [e]; exact bK i hi
  have old : ∀ {x}, m0.heLive x → r.heLive x := fun {x} h => (I.live x).2 ⟨(lv x).2 (.inl h), by
    rintro ⟨k', _, _, hx⟩; have := h.1; omega⟩
  have spoke : ∀ {k' x}, k' < d → ¬ R k' → (x = m0.nHeFill + 2 * k' ∨ x = m0.nHeFill + 2 * k' + 1) → r.heLive x := by
    intro k' x hk' hr hx
    refine (I.live x).2 ⟨(lv x).2 (.inr ⟨k', hk', hx⟩), ?_⟩
    rintro ⟨k'', _, hr', hx'⟩
    have : k'' = k' := by omega
    exact hr (this ▸ hr')
  exact {
    valid := val
    live := fun i => by
      rw [hl, I.live]
      constructor
      · rintro ⟨⟨a, c⟩, hA, hB⟩
        refine ⟨a, ?_⟩
        rintro ⟨k', hk', hr | rfl, hx⟩
        · exact c ⟨k', hk', hr, hx⟩
        · rcases hx with hx | hx
          · exact hA hx
          · exact hB hx
      · rintro ⟨a, c⟩
        refine ⟨⟨a, fun ⟨k', hk', hr, hx⟩ => c ⟨k', hk', .inl hr, hx⟩⟩, fun hx => c ⟨k, hk, .inr rfl, .inl hx⟩,
          fun hx => c ⟨k, hk, .inr rfl, .inr hx⟩⟩
    nb_r := fun k' hk' hr => by
      have e1 := bK k' hk'; have e2 := bK1 k' hk'
      rw [Q.next_o _ (old (S.b_live hk').1) (by omega) (by omega)]
      by_cases c : R k'
      · rw [I.nb_r k' hk' c, if_neg (by omega), if_neg (by omega)]
      · obtain rfl : k' = k := hr.resolve_left c
        rw [I.nb k' hk' c, if_pos rfl, I.nq k' hk' c]
    nb := fun k' hk' hr => by
      have e1 := bK k' hk'
      push Not at hr
      have := hr.2
      rw [Q.next_o _ (old (S.b_live hk').1) (by omega) (by omega), I.nb k' hk' hr.1, if_neg (by omega), if_neg (by omega)]
    nq := fun k' hk' hr => by
      have e2 := bK1 k' hk'
      push Not at hr
      have := hr.2
      rw [Q.next_o _ (spoke hk' hr.1 (.inr rfl)) (by omega) (by omega), I.nq k' hk' hr.1, if_neg (by omega), if_neg (by omega)]
    nl := fun k' hk' hr hr2 => by
      push Not at hr hr2
      have := hr.2; have := hr2.2
      rw [Q.next_o _ (spoke hk' hr.1 (.inl rfl)) (by omega) (by omega), I.nl k' hk' hr.1 hr2.1, if_neg (by omega), if_neg (by omega)]
    nl_r := fun k' hk' hr hr2 => by
      push Not at hr
      have := hr.2
      rw [Q.next_o _ (spoke hk' hr.1 (.inl rfl)) (by omega) (by omega)]
      by_cases c : R (pr d k')
      · have : pr d (pr d k') ≠ k := fun h => by
          have := (alt (pr d k') (pr_lt hd)).1 (hRT _ c); rw [h] at this; exact this hT
        rw [I.nl_r k' hk' hr.1 c, if_neg (by omega), if_neg (by omega)]
      · have e := hr2.resolve_left c
        rw [I.nl k' hk' hr.1 c, if_neg (by omega), if_pos (by omega), I.nl k hk hR nRp, e]
    no := fun i hi hb => by
      have e1 := hi.1; have e2 := (hv.next_live i hi).1
      rw [Q.next_o _ (old hi) (by omega) (by omega), I.no i hi hb, if_neg (by omega), if_neg (by omega)]
    v := fun i hi => by
      obtain ⟨a, hA, hB⟩ := (hl i).1 hi
      rw [Q.v_o i a hA hB, I.v i a]
    f_o := fun i hi hn => by
      obtain ⟨a, hA, hB⟩ := (hl i).1 hi
      rw [Q.f_o i a hA hB, I.f_o i a hn, fB, if_neg (hn j hj)]
    f_n := fun i hi k' hk' e hr => by
      obtain ⟨a, hA, hB⟩ := (hl i).1 hi
      push Not at hr
      rw [Q.f_o i a hA hB, I.f_n i a k' hk' e hr.1, fB, if_neg]
      intro h; have := fanFace_inj S.hint h; subst this; exact hr.2 ej
    f_r := fun i hi k' hk' e hr => by
      obtain ⟨a, hA, hB⟩ := (hl i).1 hi
      rw [Q.f_o i a hA hB, fA, fB]
      by_cases c : R (pr d k')
      · rw [I.f_r i a k' hk' e c, if_neg]
        intro h; have h := fanFace_inj S.hint h
        have := (alt (pr d k') (pr_lt hd)).1 (hRT _ c); rw [h, ej] at this; exact this hT
      · have e2 := hr.resolve_left c
        have : k' = j := pr_inj hk' hj (e2.trans ej.symm)
        rw [I.f_n i a k' hk' e c, if_pos (by rw [this]), e2]
    ext := fun i hi => by
      obtain ⟨a, hA, hB⟩ := (hl i).1 hi
      rw [hext i a hA hB, I.ext i a]
    fh := fun g hg => by rw [Q.fh, fA, fB, if_neg (hg j hj), if_neg (hg k hk), I.fh g hg]
    heFill := Q.c_heFill.trans I.heFill, vFill := Q.c_vFill.trans I.vFill, fFill := Q.c_fFill.trans I.fFill
    fCap := Q.c_fCap.trans I.fCap, blFill := Q.c_blFill.trans I.blFill, c_v := Q.c_v.trans I.c_v, c_bl := Q.c_bl.trans I.c_bl
    c_fe := by have := I.c_fe; rw [Q.c_f, Q.c_e]; omega }

/-- The loop over the spokes. -/
theorem merge_ok {P : Type} (hv : m0.Valid) (S : IvSpec m0 m' f d b) {s : SubSt P} (hm : s.m = m')
    (alt : ∀ k < d, s.origV (m0.heVertex (b (k + 1))) = true ↔ ¬ s.origV (m0.heVertex (b (pr d k + 1))) = true)
    {inc : List ℕ} (hnd : inc.Nodup) (hinc : ∀ i, i ∈ inc ↔ ∃ k < d, i = m0.nHeFill + 2 * k) :
    ∃ s', inc.foldlM mergeStep s = .ok s' ∧ RInv m0 m' s'.m f d b (fun k => s.origV (m0.heVertex (b (k + 1))) = true) ∧
      s'.origV = s.origV ∧ s'.pos = s.pos ∧ s'.origE = s.origE ∧ ∀ g, (∀ k < d, g ≠ m0.fanFace f k) → s'.origF g = s.origF g := by
  obtain ⟨s', e, I, h1, h2, h3, h4⟩ := foldlM_inv (l := inc) (f := mergeStep) (s0 := s)
    (fun p s' => RInv m0 m' s'.m f d b (fun k => m0.nHeFill + 2 * k ∈ p ∧ s.origV (m0.heVertex (b (k + 1))) = true) ∧
      s'.origV = s.origV ∧ s'.pos = s.pos ∧ s'.origE = s.origE ∧ ∀ g, (∀ k < d, g ≠ m0.fanFace f k) → s'.origF g = s.origF g)
    ⟨by rw [hm]; exact (RInv.zero hv S).congr (by simp), rfl, rfl, rfl, fun _ _ => rfl⟩ (by
      rintro p x q s1 hl ⟨I, h1, h2, h3, h4⟩
      obtain ⟨k, hk, rfl⟩ := (hinc x).1 (by rw [hl]; simp)
      have hnp : m0.nHeFill + 2 * k ∉ p := by
        rw [hl, List.nodup_append] at hnd
        intro hp; exact hnd.2.2 _ hp _ (by simp) rfl
      have lx : s1.m.heLive (m0.nHeFill + 2 * k) := (I.live _).2 ⟨(S.live hv _).2 (.inr ⟨k, hk, .inl rfl⟩), by
        rintro ⟨k', _, hr, hx⟩
        have : k' = k := by omega
        subst this; exact hnp hr.1⟩
      unfold mergeStep
      rw [I.v _ lx, S.v_l k hk, h1]
      by_cases hT : s.origV (m0.heVertex (b (k + 1))) = true
      · rw [if_pos hT]
        obtain ⟨r', e, I'⟩ := I.step hv S (T := fun k => s.origV (m0.heVertex (b (k + 1))) = true) alt (fun _ h => h.2) hk hT
          (fun h => hnp h.1)
        have fI : m0.fanFace f k ≠ INV := by
          have := fan_lt S hk; have := (iv_valid hv S).f_cap; omega
        unfold heEdge
        simp only [e, bind, Except.bind]
        rw [if_neg fI]
        refine ⟨_, rfl, I'.congr fun j hj => ?_, rfl, h2, h3, fun g hg => ?_⟩
        · simp only [List.mem_append, List.mem_singleton]
          constructor
          · rintro (⟨a, c⟩ | rfl)
            · exact ⟨.inl a, c⟩
            · exact ⟨.inr rfl, hT⟩
          · rintro ⟨a | a, c⟩
            · exact .inl ⟨a, c⟩
            · right; omega
        · simp only; rw [Function.update_of_ne (hg k hk), h4 g hg]
      · rw [if_neg hT]
        refine ⟨_, rfl, I.congr fun j hj => ?_, h1, h2, h3, h4⟩
        simp only [List.mem_append, List.mem_singleton]
        constructor
        · rintro ⟨a, c⟩; exact ⟨.inl a, c⟩
        · rintro ⟨a | a, c⟩
          · exact ⟨a, c⟩
          · have : j = k := by omega
            subst this; exact (hT c).elim)
  exact ⟨s', e, I.congr fun k hk => ⟨fun h => h.2, fun h => ⟨(hinc _).2 ⟨k, hk, rfl⟩, h⟩⟩, h1, h2, h3, h4⟩

end
end GC
