import Verif.Subdivide
import Verif.MeshBuildSides
import Verif.Props.Insert

/-! # The loop over the edges in subdivide.cpp: every edge of the original mesh is split once -/

namespace GC
open Mesh

/-- Number of live edges before `e`. -/
def subRk (m : Mesh) (e : ℕ) : ℕ := Nat.count (fun e => m.heLive (2 * e)) e

/-- First part of the halfedge `i` after the edges before `n` have been split. -/
def subFst (m : Mesh) (n i : ℕ) : ℕ := if i % 2 = 0 ∧ i / 2 < n then m.nHeFill + 2 * subRk m (i / 2) else i

/-- Second part of the halfedge `i`. -/
def subSnd (m : Mesh) (n i : ℕ) : ℕ := if i % 2 = 1 ∧ i / 2 < n then m.nHeFill + 2 * subRk m (i / 2) + 1 else i

section
variable {m : Mesh}

theorem live_even (hv : m.Valid) {i : ℕ} (hi : m.heLive i) : m.heLive (2 * (i / 2)) := by
  rcases Nat.even_or_odd' i with ⟨k, rfl | rfl⟩
  · rwa [show 2 * k / 2 = k by omega]
  · rw [show (2 * k + 1) / 2 = k by omega]
    have := hv.twin_live _ hi; rwa [twin_two_mul_add] at this

theorem subRk_inj (hv : m.Valid) {i j : ℕ} (hi : m.heLive i) (hj : m.heLive j) (h : subRk m (i / 2) = subRk m (j / 2)) :
    i / 2 = j / 2 := Nat.count_injective (p := fun e => m.heLive (2 * e)) (live_even hv hi) (live_even hv hj) h

theorem subRk_lt (hv : m.Valid) {i n : ℕ} (hi : m.heLive i) (h : i / 2 < n) : subRk m (i / 2) < subRk m n :=
  Nat.count_strict_mono (p := fun e => m.heLive (2 * e)) (live_even hv hi) h

theorem subRk_surj {n r : ℕ} (h : r < subRk m n) : ∃ e < n, m.heLive (2 * e) ∧ subRk m e = r := by
  induction n with
  | zero => simp [subRk] at h
  | succ n ih =>
    unfold subRk at h; rw [Nat.count_succ] at h
    by_cases hr : r < subRk m n
    · obtain ⟨e, a, b⟩ := ih hr; exact ⟨e, by omega, b⟩
    · unfold subRk at hr
      split_ifs at h with hl
      · exact ⟨n, by omega, hl, by unfold subRk; omega⟩
      · omega

theorem subFst_inj (hv : m.Valid) {n i j : ℕ} (hi : m.heLive i) (hj : m.heLive j) (h : subFst m n i = subFst m n j) : i = j := by
  have a := hi.1; have b := hj.1
  have r := subRk_inj hv hi hj
  unfold subFst at h; split_ifs at h <;> omega

theorem subSnd_inj (hv : m.Valid) {n i j : ℕ} (hi : m.heLive i) (hj : m.heLive j) (h : subSnd m n i = subSnd m n j) : i = j := by
  have a := hi.1; have b := hj.1
  have r := subRk_inj hv hi hj
  unfold subSnd at h; split_ifs at h <;> omega

theorem subFst_ne_snd (hv : m.Valid) {n i j : ℕ} (hi : m.heLive i) (hj : m.heLive j) (hn : i / 2 < n) : subFst m n i ≠ subSnd m n j := by
  have a := hi.1; have b := hj.1
  have e := hv.he_fill
  unfold subFst subSnd; split_ifs <;> omega

end

/-- State after the edges before `n`. -/
structure EInv {P : Type} (m : Mesh) (pos splitE : ℕ → P) (n : ℕ) (s : SubSt P) : Prop where
  valid : s.m.Valid
  vFill : s.m.nVFill = m.nVFill + subRk m n
  heFill : s.m.nHeFill = m.nHeFill + 2 * subRk m n
  fFill : s.m.nFFill = m.nFFill
  fCap : s.m.nFCap = m.nFCap
  blFill : s.m.nBLFill = m.nBLFill
  c_v : s.m.nV = m.nV + subRk m n
  c_e : s.m.nE = m.nE + subRk m n
  c_f : s.m.nF = m.nF
  c_bl : s.m.nBL = m.nBL
  live : ∀ i, s.m.heLive i ↔ m.heLive i ∨ (m.nHeFill ≤ i ∧ i < m.nHeFill + 2 * subRk m n)
  next2 : ∀ i, m.heLive i → s.m.heNext (subSnd m n i) = subFst m n (m.heNext i)
  next1 : ∀ i, m.heLive i → i / 2 < n → s.m.heNext (subFst m n i) = subSnd m n i
  v1 : ∀ i, m.heLive i → s.m.heVertex (subFst m n i) = m.heVertex i
  v2 : ∀ i, m.heLive i → i / 2 < n → s.m.heVertex (subSnd m n i) = m.nVFill + subRk m (i / 2)
  f1 : ∀ i, m.heLive i → s.m.heFace (subFst m n i) = m.heFace i
  f2 : ∀ i, m.heLive i → s.m.heFace (subSnd m n i) = m.heFace i
  fh : s.m.fHalfedge = m.fHalfedge
  origV : ∀ v, s.origV v = !decide (m.nVFill ≤ v ∧ v < m.nVFill + subRk m n)
  origE : ∀ e, n ≤ e → e < m.nEFill → s.origE e = true
  origF : ∀ f, s.origF f = true
  pos_o : ∀ v, v < m.nVFill → s.pos v = pos v
  pos_n : ∀ e, e < n → m.heLive (2 * e) → s.pos (m.nVFill + subRk m e) = splitE e

section
variable {P : Type} {m : Mesh} {pos splitE : ℕ → P}

theorem EInv.zero (hv : m.Valid) : EInv m pos splitE 0 ⟨m, pos, fun _ => true, fun _ => true, fun _ => true⟩ := by
  have r0 : subRk m 0 = 0 := rfl
  have a : ∀ i, subFst m 0 i = i := fun i => by unfold subFst; simp
  have b : ∀ i, subSnd m 0 i = i := fun i => by unfold subSnd; simp
  constructor <;> simp [r0, a, b, hv]
  all_goals intros; omega

theorem EInv.step (hv : m.Valid) (hd : ∀ e, m.heLive (2 * e) → m.heNext (2 * e + 1) ≠ 2 * e) {n : ℕ} (hn : n < m.nEFill)
    {s : SubSt P} (I : EInv m pos splitE n s) :
    (∃ s', splitEdgeStep splitE s n = .ok s' ∧ EInv m pos splitE (n + 1) s') ∨
      (splitEdgeStep splitE s n = .error .oom ∧ m.heLive (2 * n) ∧ s.m.nearLimit 1) := by
  have fill := hv.he_fill
  have hlow : s.m.heLive (2 * n) ↔ m.heLive (2 * n) := by rw [I.live]; constructor <;> [(rintro (h | h) <;> [exact h; omega]); exact .inl]
  unfold splitEdgeStep eHalfedge
  by_cases hl : m.heLive (2 * n)
  swap
  · rw [if_pos (by rwa [hlow])]
    refine .inl ⟨s, rfl, ?_⟩
    have r : subRk m (n + 1) = subRk m n := by unfold subRk; rw [Nat.count_succ, if_neg hl, Nat.add_zero]
    have nl : ∀ i, m.heLive i → i / 2 ≠ n := fun i hi h => hl (h ▸ live_even hv hi)
    have a : ∀ i, m.heLive i → subFst m (n + 1) i = subFst m n i := fun i hi => by
      have := nl i hi; unfold subFst; split_ifs <;> omega
    have b : ∀ i, m.heLive i → subSnd m (n + 1) i = subSnd m n i := fun i hi => by
      have := nl i hi; unfold subSnd; split_ifs <;> omega
    exact {
      valid := I.valid, vFill := by rw [r]; exact I.vFill, heFill := by rw [r]; exact I.heFill, fFill := I.fFill, fCap := I.fCap
      blFill := I.blFill, c_v := by rw [r]; exact I.c_v, c_e := by rw [r]; exact I.c_e, c_f := I.c_f, c_bl := I.c_bl
      live := by rw [r]; exact I.live
      next2 := fun i hi => by rw [b i hi, a _ (hv.next_live i hi)]; exact I.next2 i hi
      next1 := fun i hi h => by rw [b i hi, a i hi]; exact I.next1 i hi (by have := nl i hi; omega)
      v1 := fun i hi => by rw [a i hi]; exact I.v1 i hi
      v2 := fun i hi h => by rw [b i hi]; exact I.v2 i hi (by have := nl i hi; omega)
      f1 := fun i hi => by rw [a i hi]; exact I.f1 i hi
      f2 := fun i hi => by rw [b i hi]; exact I.f2 i hi
      fh := I.fh, origV := by rw [r]; exact I.origV
      origE := fun e h => I.origE e (by omega), origF := I.origF, pos_o := I.pos_o
      pos_n := fun e h he => I.pos_n e (by have : e ≠ n := fun h => hl (h ▸ he); omega) he }
  have hls := hlow.2 hl
  have r : subRk m (n + 1) = subRk m n + 1 := by unfold subRk; rw [Nat.count_succ, if_pos hl]
  have tw : twin (2 * n) = 2 * n + 1 := twin_two_mul n
  have lB : m.heLive (2 * n + 1) := by rw [← tw]; exact hv.twin_live _ hl
  have hA : subFst m n (2 * n) = 2 * n := by unfold subFst; rw [if_neg (by omega)]
  have hB : subSnd m n (2 * n + 1) = 2 * n + 1 := by unfold subSnd; rw [if_neg (by omega)]
  have hA2 : subSnd m n (2 * n) = 2 * n := by unfold subSnd; rw [if_neg (by omega)]
  have hB2 : subFst m n (2 * n + 1) = 2 * n + 1 := by unfold subFst; rw [if_neg (by omega)]
  have nxB : s.m.heNext (2 * n + 1) = subFst m n (m.heNext (2 * n + 1)) := by rw [← I.next2 _ lB, hB]
  have lnB := hv.next_live _ lB
  have hds : s.m.heNext (twin (eHalfedge n)) ≠ eHalfedge n := by
    unfold eHalfedge
    rw [tw, nxB]; intro h
    exact hd n hl (subFst_inj hv lnB hl (h.trans hA.symm))
  rw [if_neg (by simpa using hls), if_neg (by simp [I.origE n le_rfl hn])]
  rcases ivae_spec I.valid (e := n) hls hds with ⟨h, lim⟩ | ⟨m', pA, h, S⟩
  · right; rw [h]; exact ⟨rfl, hl, lim⟩
  left
  rw [h]
  have hval := ivae_valid I.valid S
  have hlive := ivae_live I.valid S
  unfold eHalfedge at S ⊢
  rw [tw] at S
  obtain ⟨q, -, lq, nq⟩ := hv.prevOrbitFace_ok hl
  have hf : ∀ i, m.heLive i → s.m.heLive (subFst m n i) := fun i hi => by
    rw [I.live]; unfold subFst; split_ifs with c
    · right; have := subRk_lt hv hi c.2; omega
    · exact .inl hi
  have hs : ∀ i, m.heLive i → s.m.heLive (subSnd m n i) := fun i hi => by
    rw [I.live]; unfold subSnd; split_ifs with c
    · right; have := subRk_lt hv hi c.2; omega
    · exact .inl hi
  have hp : pA = subSnd m n q := I.valid.next_inj S.lp (hs q lq) (by rw [S.np, I.next2 q lq, nq, hA])
  have a : ∀ i, subFst m (n + 1) i = if i = 2 * n then s.m.nHeFill else subFst m n i := fun i => by
    have := I.heFill
    by_cases hi : i = 2 * n
    · subst hi; unfold subFst; rw [if_pos (by omega), if_pos rfl, show 2 * n / 2 = n by omega]; omega
    · rw [if_neg hi]; unfold subFst; split_ifs <;> omega
  have b : ∀ i, subSnd m (n + 1) i = if i = 2 * n + 1 then s.m.nHeFill + 1 else subSnd m n i := fun i => by
    have := I.heFill
    by_cases hi : i = 2 * n + 1
    · subst hi; unfold subSnd; rw [if_pos (by omega), if_pos rfl, show (2 * n + 1) / 2 = n by omega]; omega
    · rw [if_neg hi]; unfold subSnd; split_ifs <;> omega
  have fne : ∀ i, m.heLive i → subFst m n i ≠ s.m.nHeFill ∧ subFst m n i ≠ s.m.nHeFill + 1 := fun i hi => by
    have := (hf i hi).1; omega
  have sne : ∀ i, m.heLive i → subSnd m n i ≠ s.m.nHeFill ∧ subSnd m n i ≠ s.m.nHeFill + 1 := fun i hi => by
    have := (hs i hi).1; omega
  have vA : s.m.heVertex (2 * n) = m.heVertex (2 * n) := by rw [← hA, I.v1 _ hl, hA]
  have vB : s.m.heVertex (2 * n + 1) = m.heVertex (2 * n + 1) := by rw [← hB2, I.v1 _ lB, hB2]
  have oA := (hv.vertex_live _ hl).1
  have oB := (hv.vertex_live _ lB).1
  have e1 : m'.heVertex (2 * n) = s.m.nVFill := S.v_A
  have e2 : m'.heVertex (2 * n + 1) = m.heVertex (2 * n + 1) := by
    have := lB.1; have := I.heFill
    rw [S.v_o _ (by omega) (by omega) (by omega), vB]
  have tn1 : twin (s.m.nHeFill + 1) = s.m.nHeFill := by rw [I.valid.he_fill, twin_two_mul_add]
  have vf := I.vFill
  have guard : (Function.update s.origV s.m.nVFill false (m.heVertex (2 * n + 1)) &&
      Function.update s.origV s.m.nVFill false (m.heVertex (2 * n))) = true := by
    rw [Function.update_of_ne (by omega), Function.update_of_ne (by omega), I.origV, I.origV]
    simp; omega
  simp only [bind, Except.bind, tw, e1, e2, S.next_B, tn1, S.v_n0, vA, guard, if_true]
  refine ⟨_, rfl, ?_⟩
  exact {
    valid := hval
    vFill := by rw [r]; simp only; rw [S.c_vFill]; omega
    heFill := by rw [r]; simp only; rw [S.c_heFill, I.heFill]; omega
    fFill := S.c_fFill.trans I.fFill, fCap := S.c_fCap.trans I.fCap, blFill := S.c_blFill.trans I.blFill
    c_v := by rw [r]; simp only; rw [S.c_v, I.c_v]; omega
    c_e := by rw [r]; simp only; rw [S.c_e, I.c_e]; omega
    c_f := S.c_f.trans I.c_f, c_bl := S.c_bl.trans I.c_bl
    live := fun i => by
      simp only; rw [hlive, I.live, r, I.heFill]
      constructor
      · rintro (h | h | h | h)
        · right; omega
        · right; omega
        · exact .inl h
        · right; omega
      · rintro (h | h)
        · exact .inr (.inr (.inl h))
        · by_cases c : i < m.nHeFill + 2 * subRk m n
          · exact .inr (.inr (.inr ⟨h.1, c⟩))
          · omega
    next2 := fun i hi => by
      simp only
      rw [b, a]
      by_cases hiB : i = 2 * n + 1
      · subst hiB
        rw [if_pos rfl, if_neg (hd n hl), S.next_n1, nxB]
      rw [if_neg hiB]
      by_cases hq : i = q
      · subst hq; rw [if_pos nq, ← hp]; exact S.next_p
      rw [if_neg (fun h => hq (hv.next_inj hi lq (h.trans nq.symm))),
        S.next_o _ (sne i hi).1 (sne i hi).2 (fun h => hiB (subSnd_inj hv hi lB (h.trans hB.symm)))
          (fun h => hq (subSnd_inj hv hi lq (h.trans hp))), I.next2 i hi]
    next1 := fun i hi h => by
      simp only
      rw [b, a]
      by_cases hiA : i = 2 * n
      · subst hiA; rw [if_pos rfl, if_neg (by omega), S.next_n0, hA2]
      rw [if_neg hiA]
      by_cases hiB : i = 2 * n + 1
      · subst hiB; rw [if_pos rfl, hB2]; exact S.next_B
      rw [if_neg hiB, S.next_o _ (fne i hi).1 (fne i hi).2 (fun h => hiB (subFst_inj hv hi lB (h.trans hB2.symm)))
        (fun h => subFst_ne_snd hv hi lq (by omega) (h.trans hp)), I.next1 i hi (by omega)]
    v1 := fun i hi => by
      simp only
      rw [a]
      by_cases hiA : i = 2 * n
      · subst hiA; rw [if_pos rfl, S.v_n0, vA]
      rw [if_neg hiA, S.v_o _ (fne i hi).1 (fne i hi).2 (fun h => hiA (subFst_inj hv hi hl (h.trans hA.symm))), I.v1 i hi]
    v2 := fun i hi h => by
      simp only
      rw [b]
      by_cases hiB : i = 2 * n + 1
      · subst hiB; rw [if_pos rfl, S.v_n1, show (2 * n + 1) / 2 = n by omega, vf]
      rw [if_neg hiB]
      by_cases hiA : i = 2 * n
      · subst hiA; rw [hA2, e1, show 2 * n / 2 = n by omega, vf]
      rw [S.v_o _ (sne i hi).1 (sne i hi).2 (fun h => hiA (subSnd_inj hv hi hl (h.trans hA2.symm))), I.v2 i hi (by omega)]
    f1 := fun i hi => by
      simp only
      rw [a]
      by_cases hiA : i = 2 * n
      · subst hiA; rw [if_pos rfl, S.f_n0, ← I.f1 _ hl, hA]
      rw [if_neg hiA, S.f_o _ (fne i hi).1 (fne i hi).2, I.f1 i hi]
    f2 := fun i hi => by
      simp only
      rw [b]
      by_cases hiB : i = 2 * n + 1
      · subst hiB; rw [if_pos rfl, S.f_n1, ← I.f2 _ lB, hB]
      rw [if_neg hiB, S.f_o _ (sne i hi).1 (sne i hi).2, I.f2 i hi]
    fh := S.fh.trans I.fh
    origV := fun v => by
      simp only
      rw [r]
      by_cases c : v = s.m.nVFill
      · subst c; rw [Function.update_self, vf]; simp
      · rw [Function.update_of_ne c, I.origV]; congr 1; rw [decide_eq_decide]; omega
    origE := fun e h1 h2 => by
      simp only
      have := I.valid.he_fill; have := I.heFill
      rw [Function.update_of_ne (by unfold heEdge; omega), Function.update_of_ne (by unfold heEdge; omega), I.origE e (by omega) h2]
    origF := I.origF
    pos_o := fun v h => by simp only; rw [Function.update_of_ne (by omega), I.pos_o v h]
    pos_n := fun e h he => by
      simp only
      by_cases c : e = n
      · subst c; rw [← vf, Function.update_self]
      · have : subRk m e < subRk m n := Nat.count_strict_mono (p := fun e => m.heLive (2 * e)) he (by omega)
        rw [Function.update_of_ne (by omega), I.pos_n e (by omega) he] }

/-- The loop over all edges. -/
theorem splitEdges_ok (hv : m.Valid) (hd : ∀ e, m.heLive (2 * e) → m.heNext (2 * e + 1) ≠ 2 * e) :
    (∃ s, splitEdges splitE ⟨m, pos, fun _ => true, fun _ => true, fun _ => true⟩ = .ok s ∧ EInv m pos splitE m.nEFill s) ∨
      (splitEdges splitE ⟨m, pos, fun _ => true, fun _ => true, fun _ => true⟩ = .error .oom ∧ m.nearLimit (subRk m m.nEFill)) := by
  unfold splitEdges
  rcases foldlM_inv_err (l := List.range m.nEFill) (f := splitEdgeStep splitE) (fun p s => EInv m pos splitE p.length s)
    (fun e => e = .oom ∧ m.nearLimit (subRk m m.nEFill)) (s0 := ⟨m, pos, fun _ => true, fun _ => true, fun _ => true⟩)
    (EInv.zero hv) (by
      intro p x q s hl I
      have hlen := congrArg List.length hl
      simp at hlen
      have hx : x = p.length := by
        have h1 := congrArg (fun l => l[p.length]?) hl
        simp [List.getElem?_range (show p.length < m.nEFill by omega)] at h1
        exact h1.symm
      subst hx
      rcases I.step hv hd (by omega) with ⟨s', e, I'⟩ | ⟨e, hl', lim⟩
      · exact .inl ⟨s', e, by simpa using I'⟩
      · refine .inr ⟨_, e, rfl, lim.mono ?_ ?_ ?_⟩
        all_goals
          have : subRk m p.length < subRk m m.nEFill := Nat.count_strict_mono (p := fun e => m.heLive (2 * e)) hl' (by omega)
          have := I.vFill; have := I.heFill; have := I.fFill; have := I.c_bl
          omega) with ⟨s, e, I⟩ | ⟨e, h, rfl, lim⟩
  · exact .inl ⟨s, e, by simpa using I⟩
  · exact .inr ⟨h, lim⟩

end
end GC
