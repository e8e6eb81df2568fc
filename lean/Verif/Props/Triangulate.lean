import Verif.MeshSplit
import Verif.Props.Connect
import Mathlib.Data.Finset.Card
import Mathlib.Data.Finset.Dedup
import Mathlib.Data.List.Chain
import Mathlib.Tactic.IntervalCases

/-! # Property C08: triangulate -/

namespace GC
open Mesh

theorem triangulateLoop_spec (f z : ℕ) (t : List ℕ) : ∀ (m : Mesh) (C p : ℕ), m.Valid → f < m.nFFill →
    (∀ x ∈ C :: p :: (t ++ [z]), m.heLive x ∧ m.heFace x = f) →
    List.IsChain (fun a b => m.heNext a = b) (C :: p :: (t ++ [z])) → m.heNext z = C →
    (C :: p :: (t ++ [z])).Nodup →
    (m.triangulateLoop C t = .error .oom ∧ m.nearLimit t.length) ∨
    ∃ m', m.triangulateLoop C t = .ok (m', List.range' m.nFFill t.length) ∧ m'.Valid ∧
      m'.nV = m.nV ∧ m'.nE = m.nE + t.length ∧ m'.nF = m.nF + t.length ∧ m'.nBL = m.nBL ∧
      m'.nFFill = m.nFFill + t.length ∧
      (∀ i, m.heLive i → m'.heLive i ∧ m'.heVertex i = m.heVertex i) ∧
      (∀ i, m.heLive i → m.heFace i ≠ f → m'.heNext i = m.heNext i) ∧
      (∀ i, m.heLive i → m.heFace i ≠ f → m.heFace i < m.nFFill → m'.heFace i = m.heFace i) ∧
      (∀ i, m.heLive i → (m'.ext i ↔ m.ext i)) ∧
      (∀ i, m.heLive i → m.heFace i = f → m'.heFace i ∈ f :: List.range' m.nFFill t.length) ∧
      (∀ i, m'.heLive i → m'.heFace i ∈ f :: List.range' m.nFFill t.length →
        m'.heNext (m'.heNext (m'.heNext i)) = i) ∧
      (∀ g ∈ f :: List.range' m.nFFill t.length, ∃ i, m'.heLive i ∧ m'.heFace i = g) := by
  induction t with
  | nil =>
    intro m C p hv hf hmem hch hz hnd
    right
    simp only [List.nil_append, List.isChain_cons_cons, List.isChain_singleton] at hch
    obtain ⟨c1, c2, -⟩ := hch
    have hC := hmem C (by simp)
    refine ⟨m, rfl, hv, rfl, rfl, rfl, rfl, rfl, fun i hi => ⟨hi, rfl⟩, fun i _ _ => rfl, fun i _ _ _ => rfl,
      fun i _ => Iff.rfl, ?_, ?_, ?_⟩
    · intro i _ h; simp [h]
    · intro i hi hfi
      simp at hfi
      have o := (hv.face_iff C i hC.1 hi).1 (by rw [hC.2, hfi])
      refine o.induct (fun x => m.heNext (m.heNext (m.heNext x)) = x) (by rw [c1, c2, hz]) ?_
      intro x hx; rw [hx]
    · intro g hg; simp at hg; subst hg; exact ⟨C, hC⟩
  | cons h t ih =>
    intro m C p hv hf hmem hch hz hnd
    simp only [List.cons_append, List.isChain_cons_cons] at hch
    obtain ⟨c1, c2, hch⟩ := hch
    have hC := hmem C (by simp)
    have hp := hmem p (by simp)
    have hh := hmem h (by simp)
    have hzm := hmem z (by simp)
    have hnd0 := hnd
    simp only [List.cons_append, List.nodup_cons, List.mem_cons, List.mem_append, not_or, List.not_mem_nil,
      not_false_eq_true, and_true] at hnd
    obtain ⟨⟨nCp, nCh, nCt, nCz⟩, ⟨nph, npt, npz⟩, ⟨nht, nhz⟩, ndt⟩ := hnd
    have nhC : m.heNext h ≠ C := by
      cases t with
      | nil =>
        simp only [List.nil_append, List.isChain_cons_cons] at hch
        rw [hch.1]; exact fun e => nCz e.symm
      | cons a t =>
        simp only [List.cons_append, List.isChain_cons_cons] at hch
        rw [hch.1]; rintro rfl; exact nCt (by simp)
    unfold triangulateLoop
    rcases C05_connectVertices m hv C h hC.1 hh.1 (by rw [hC.2, hh.2]) (by rw [hC.2]; exact hf) nCh
      (by rw [c1]; exact nph) nhC with ⟨e, lim⟩ | e
    · left; rw [e]
      exact ⟨rfl, lim.mono (by simp) (by simp) (by simp)⟩
    obtain ⟨m1, e, hv1, cV1, cE1, cF1, cB1, cH1, cFF1, cHF1, cVF1, new1, live1, v1n, tip1n, f1n, f1n', nx1n, nx1n', nx1, v1, vh1,
      f1, f1', ext1⟩ := e
    rw [e]; simp only
    have tn : twin m.nHeFill = m.nHeFill + 1 := by rw [hv.he_fill, twin_two_mul]
    have old1 : ∀ {i}, m.heLive i → m1.heLive i := fun hi => (live1 _).2 (Or.inl hi)
    have ln0 : m1.heLive m.nHeFill := (live1 _).2 (Or.inr (Or.inl rfl))
    have ln1 : m1.heLive (m.nHeFill + 1) := (live1 _).2 (Or.inr (Or.inr rfl))
    have rest : ∀ x ∈ t ++ [z], x ≠ C ∧ x ≠ p ∧ x ≠ h := by
      intro x hx
      rw [List.mem_append, List.mem_singleton] at hx
      rcases hx with hx | rfl
      · refine ⟨?_, ?_, ?_⟩ <;> rintro rfl
        · exact nCt hx
        · exact npt hx
        · exact nht hx
      · exact ⟨fun e => nCz e.symm, fun e => npz e.symm, fun e => nhz e.symm⟩
    have nxz : m1.heNext z = m.nHeFill := by rw [nx1 z hzm.1, hz, if_pos rfl]
    -- new chain
    have hch1 : List.IsChain (fun a b => m1.heNext a = b) (h :: (t ++ [z])) := by
      have : ∀ (l : List ℕ) (a : ℕ), List.IsChain (fun a b => m.heNext a = b) (a :: l) → m.heLive a →
          (∀ x ∈ l, m.heLive x ∧ x ≠ C ∧ x ≠ h) → List.IsChain (fun a b => m1.heNext a = b) (a :: l) := by
        intro l
        induction l with
        | nil => intro a _ _ _; simp
        | cons b l ihl =>
          intro a hc ha hl
          rw [List.isChain_cons_cons] at hc ⊢
          obtain ⟨lb, b1, b2⟩ := hl b (by simp)
          refine ⟨?_, ihl b hc.2 lb (fun x hx => hl x (by simp [hx]))⟩
          rw [nx1 a ha, hc.1, if_neg b1, if_neg b2]
      refine this _ h hch hh.1 ?_
      intro x hx
      exact ⟨(hmem x (by rw [List.cons_append]; simp at hx ⊢; tauto)).1, (rest x hx).1, (rest x hx).2.2⟩
    have fz1 : m1.heFace z = f := by
      have := hv1.face_next (old1 hzm.1); rw [nxz, f1n, hC.2] at this; exact this.symm
    have fh1 : m1.heFace h = f := by
      have := hv1.face_next ln0; rw [nx1n, f1n, hC.2] at this; exact this
    have hmem1 : ∀ x ∈ m.nHeFill :: h :: (t ++ [z]), m1.heLive x ∧ m1.heFace x = f := by
      intro x hx
      rw [List.mem_cons] at hx
      rcases hx with rfl | hx
      · exact ⟨ln0, by rw [f1n, hC.2]⟩
      · have lx : m.heLive x := (hmem x (by rw [List.cons_append]; simp at hx ⊢; tauto)).1
        refine ⟨old1 lx, ?_⟩
        -- reachable from h along the chain
        have hR : ∀ (l : List ℕ) (a : ℕ), List.IsChain (fun a b => m1.heNext a = b) (a :: l) → m1.heLive a →
            m1.heFace a = f → ∀ x ∈ a :: l, m1.heFace x = f := by
          intro l
          induction l with
          | nil => intro a _ _ hf x hx; simp at hx; rw [hx]; exact hf
          | cons b l ihl =>
            intro a hc ha hf x hx
            rw [List.isChain_cons_cons] at hc
            rw [List.mem_cons] at hx
            rcases hx with rfl | hx
            · exact hf
            · exact ihl b hc.2 (by rw [← hc.1]; exact hv1.next_live _ ha)
                (by rw [← hc.1, hv1.face_next ha, hf]) x hx
        exact hR _ h hch1 (old1 hh.1) fh1 x hx
    have hnd1 : (m.nHeFill :: h :: (t ++ [z])).Nodup := by
      rw [List.nodup_cons]
      refine ⟨?_, ?_⟩
      · intro hx
        have := (hmem m.nHeFill (by rw [List.cons_append]; simp at hx ⊢; tauto)).1.1
        exact lt_irrefl _ this
      · have := hnd0
        rw [List.cons_append, List.nodup_cons, List.nodup_cons] at this
        exact this.2.2
    rcases ih m1 m.nHeFill h hv1 (by rw [cFF1]; omega) hmem1
      (by rw [List.isChain_cons_cons]; exact ⟨nx1n, hch1⟩) nxz hnd1 with ⟨g, lim⟩ | g
    · left; rw [g]
      exact ⟨rfl, lim.mono (by rw [cVF1]; simp) (by rw [cHF1]; simp; omega) (by rw [cFF1, cB1]; simp; omega)⟩
    right
    obtain ⟨m2, g, hv2, cV2, cE2, cF2, cB2, cFF2, old2, nx2, f2, ext2, f2', tri2, ex2⟩ := g
    rw [g]; simp only
    rw [cFF1] at f2' tri2 ex2 cFF2
    rw [tn, f1n', cFF1]
    have fne : m.nFFill ≠ f := by omega
    have ll : (h :: t).length = t.length + 1 := rfl
    have r' : List.range' m.nFFill (t.length + 1) = m.nFFill :: List.range' (m.nFFill + 1) t.length := by
      rw [List.range'_succ]
    have fp1 : m1.heFace p = m.nFFill := by
      have := hv1.face_next (old1 hp.1)
      rw [nx1 p hp.1, c2, if_neg (fun e => nCh e.symm), if_pos rfl, f1n'] at this
      exact this.symm
    have fC1 : m1.heFace C = m.nFFill := by
      have := hv1.face_next ln1; rw [nx1n', f1n'] at this; exact this
    have nxC : m1.heNext C = p := by
      rw [nx1 C hC.1, c1, if_neg (fun e => nCp e.symm), if_neg nph]
    have nxp : m1.heNext p = m.nHeFill + 1 := by
      rw [nx1 p hp.1, c2, if_neg (fun e => nCh e.symm), if_pos rfl]
    refine ⟨m2, by rw [ll, r'], hv2, by omega, by rw [ll]; omega, by rw [ll]; omega, by omega, by rw [ll]; omega,
      ?_, ?_, ?_, ?_, ?_, ?_, ?_⟩
    · intro i hi
      obtain ⟨a, b⟩ := old2 i (old1 hi)
      exact ⟨a, by rw [b, v1 i hi]⟩
    · intro i hi hne
      have hni : m1.heFace i ≠ f := by
        intro e
        rcases Classical.em (m.ext i) with x | x
        · have := (ext1 i hi).2 x; unfold ext at this; omega
        · have := f1 i hi (Valid.face_lt x) (by rw [hC.2]; exact hne)
          exact hne (by rw [← this, e])
      rw [nx2 i (old1 hi) hni, nx1 i hi, if_neg, if_neg]
      · intro e; apply hne; rw [← hv.face_next hi, e, hh.2]
      · intro e; apply hne; rw [← hv.face_next hi, e, hC.2]
    · intro i hi hne hlt
      have e1 := f1 i hi hlt (by rw [hC.2]; exact hne)
      rw [f2 i (old1 hi) (by rw [e1]; exact hne) (by rw [e1, cFF1]; omega), e1]
    · intro i hi; rw [ext2 i (old1 hi), ext1 i hi]
    · intro i hi hfi
      rw [ll, r']
      rcases f1' i hi (by rw [hC.2, hfi]) with e1 | e1
      · rw [hC.2] at e1
        have := f2' i (old1 hi) e1
        simp only [List.mem_cons] at this ⊢; tauto
      · have := f2 i (old1 hi) (by rw [e1]; exact fne) (by rw [e1, cFF1]; omega)
        rw [this, e1]; simp
    · intro i hi hfi
      rw [ll, r'] at hfi
      have hfi' : m2.heFace i = m.nFFill ∨ m2.heFace i ∈ f :: List.range' (m.nFFill + 1) t.length := by
        simp only [List.mem_cons] at hfi ⊢; tauto
      rcases hfi' with e1 | e1
      · have a1 : m2.heNext C = p := by rw [nx2 C (old1 hC.1) (by rw [fC1]; exact fne), nxC]
        have a2 : m2.heNext p = m.nHeFill + 1 := by rw [nx2 p (old1 hp.1) (by rw [fp1]; exact fne), nxp]
        have a3 : m2.heNext (m.nHeFill + 1) = C := by rw [nx2 _ ln1 (by rw [f1n']; exact fne), nx1n']
        have fC2 : m2.heFace C = m.nFFill := by
          rw [f2 C (old1 hC.1) (by rw [fC1]; exact fne) (by rw [fC1, cFF1]; omega), fC1]
        have o := (hv2.face_iff C i (old2 _ (old1 hC.1)).1 hi).1 (by rw [fC2, e1])
        refine o.induct (fun x => m2.heNext (m2.heNext (m2.heNext x)) = x) (by rw [a1, a2, a3]) ?_
        intro x hx; rw [hx]
      · exact tri2 i hi e1
    · intro g hg
      rw [ll, r'] at hg
      have hg' : g = m.nFFill ∨ g ∈ f :: List.range' (m.nFFill + 1) t.length := by
        simp only [List.mem_cons] at hg ⊢; tauto
      rcases hg' with rfl | hg'
      · exact ⟨C, (old2 _ (old1 hC.1)).1,
          by rw [f2 C (old1 hC.1) (by rw [fC1]; exact fne) (by rw [fC1, cFF1]; omega), fC1]⟩
      · exact ex2 g hg'

/-- Consecutive iterates form a chain. -/
theorem isChain_iterate (g : ℕ → ℕ) (x k : ℕ) :
    List.IsChain (fun a b => g a = b) ((List.range k).map (fun j => g^[j] x)) := by
  rw [List.isChain_iff_getElem]
  intro i hi
  simp only [List.getElem_map, List.getElem_range]
  rw [Function.iterate_succ_apply']

/-- **C08.** Let `f` be an interior face of a valid mesh and `L` the set of its halfedges, of which there
are `d ≥ 3`. `triangulate f` runs out of memory or returns a valid mesh and a list of `d - 2` distinct live
faces starting with `f`, all of them triangles; `d - 3` edges and faces and no vertices are added. The
triangles cover exactly what was `f`: halfedges of `f` end up in one of them, all other halfedges keep
their successor and their face, and all keep their vertex. -/
theorem C08_triangulate (m : Mesh) (hv : m.Valid) (f : ℕ) (hf : m.fLive f) (hint : f < m.nFFill)
    (L : Finset ℕ) (hL : ∀ i, i ∈ L ↔ m.heLive i ∧ m.heFace i = f) (hd : 3 ≤ L.card) :
    (m.triangulate f = .error .oom ∧ m.nearLimit L.card) ∨
    ∃ m' fs, m.triangulate f = .ok (m', fs) ∧ m'.Valid ∧
      fs.length = L.card - 2 ∧ fs.Nodup ∧ f ∈ fs ∧
      (∀ g ∈ fs, m'.fLive g ∧ g < m'.nFFill ∧ m'.heNext (m'.heNext (m'.heNext (m'.fHalfedge g))) = m'.fHalfedge g) ∧
      m'.nV = m.nV ∧ m'.nE = m.nE + (L.card - 3) ∧ m'.nF = m.nF + (L.card - 3) ∧ m'.nBL = m.nBL ∧
      (∀ i, m.heLive i → m'.heLive i ∧ m'.heVertex i = m.heVertex i) ∧
      (∀ i ∈ L, m'.heFace i ∈ fs) ∧
      (∀ i, m.heLive i → i ∉ L → m'.heNext i = m.heNext i ∧ m'.heFace i ∉ fs ∧
        (m.heFace i < m.nFFill → m'.heFace i = m.heFace i)) ∧
      (∀ i, m.heLive i → (m'.ext i ↔ m.ext i)) := by
  classical
  obtain ⟨l, hl, hnd, hmem, k, hlk, hback⟩ := hv.faceHalfedges_ok hf
  obtain ⟨l0, e0⟩ := hv.f_he f hf
  have hLl : L = l.toFinset := by ext i; rw [List.mem_toFinset, hL, hmem]
  have hcard : L.card = k + 1 := by
    rw [hLl, List.toFinset_card_of_nodup hnd, hlk]; simp
  have per : ∀ i, m.heLive i → m.heFace i = f → Orb m.heNext (m.fHalfedge f) i := fun i hi he =>
    (hv.face_iff _ _ l0 hi).1 (by rw [e0, he])
  unfold triangulate
  rw [if_neg (by unfold faceIsBL; omega)]
  -- tail of the conclusion common to both branches
  by_cases ht : m.fIsTriangle f
  · right
    rw [if_pos ht]
    have h3 : m.heNext^[3] (m.fHalfedge f) = m.fHalfedge f := ht.symm
    have k2 : k = 2 := by
      by_contra hne
      have : 3 < k + 1 := by omega
      rw [hlk, List.nodup_iff_injective_get] at hnd
      have := @hnd ⟨0, by simp⟩ ⟨3, by simpa using this⟩ (by simpa using h3.symm)
      simp at this
    rw [hcard, k2]
    refine ⟨m, [f], rfl, hv, rfl, by simp, by simp, ?_, rfl, rfl, rfl, rfl, fun i hi => ⟨hi, rfl⟩, ?_, ?_,
      fun i _ => Iff.rfl⟩
    · intro g hg; simp at hg; subst hg; exact ⟨hf, hint, h3⟩
    · intro i hi; simp [((hL i).1 hi).2]
    · intro i hi hni
      exact ⟨rfl, by simp; intro e; exact hni ((hL i).2 ⟨hi, e⟩), fun _ => rfl⟩
  · rw [if_neg ht, hl]
    simp only
    generalize m.fHalfedge f = a at *
    have hl1 : l.length = k + 1 := by rw [hlk]; simp
    -- l = a :: next a :: t ++ [z]
    obtain ⟨t, ht'⟩ : ∃ t, t = (l.take (l.length - 1)).drop 2 := ⟨_, rfl⟩
    obtain ⟨z, hz⟩ : ∃ z, z = m.heNext^[k] a := ⟨_, rfl⟩
    have hdec : l = a :: m.heNext a :: (t ++ [z]) := by
      rw [ht', hl1]
      apply List.ext_getElem
      · simp [hl1]; omega
      · intro i h1 h2
        rcases i with _ | _ | i
        · simp [hlk]
        · simp [hlk]
        · rw [hl1] at h1
          simp only [List.getElem_cons_succ]
          by_cases hi : i + 2 < k
          · rw [List.getElem_append_left (by simp [hl1]; omega)]
            simp only [hlk, List.getElem_map, List.getElem_range, List.getElem_drop, List.getElem_take]
            rw [show i + 1 + 1 = 2 + i by omega]
          · rw [List.getElem_append_right (by simp [hl1]; omega)]
            have : i + 2 = k := by omega
            simp [hlk, hz, ← this]
    have hlen : t.length = k - 2 := by
      have := congrArg List.length hdec
      simp at this; omega
    rw [← ht']
    have hch : List.IsChain (fun a b => m.heNext a = b) (a :: m.heNext a :: (t ++ [z])) := by
      rw [← hdec, hlk]; exact isChain_iterate _ _ _
    have hza : m.heNext z = a := by rw [hz, ← Function.iterate_succ_apply' m.heNext]; exact hback
    rcases triangulateLoop_spec f z t m a (m.heNext a) hv hint
      (by intro x hx; rw [← hdec] at hx; exact (hmem x).1 hx) hch hza (by rw [← hdec]; exact hnd) with ⟨g, lim⟩ | g
    · left; rw [g]
      exact ⟨rfl, lim.mono (by omega) (by omega) (by omega)⟩
    right
    obtain ⟨m', g, hv', cV, cE, cF, cB, cFF, old, nx, fo, ex, fin, tri, exi⟩ := g
    rw [g]; simp only
    have hcl : L.card - 3 = t.length := by omega
    refine ⟨m', f :: List.range' m.nFFill t.length, rfl, hv', ?_, ?_, by simp, ?_, cV, by rw [hcl, cE],
      by rw [hcl, cF], cB, old, ?_, ?_, ex⟩
    · simp; omega
    · rw [List.nodup_cons]
      refine ⟨?_, List.nodup_range'⟩
      simp only [List.mem_range'_1]; omega
    · intro g hg
      obtain ⟨i, hi, hfi⟩ := exi g hg
      have hgl : m'.fLive g := by rw [← hfi]; exact hv'.face_live i hi
      have hgh := hv'.f_he g hgl
      refine ⟨hgl, ?_, tri _ hgh.1 (by rw [hgh.2]; exact hg)⟩
      simp only [List.mem_cons, List.mem_range'_1] at hg; omega
    · intro i hi
      exact fin i ((hL i).1 hi).1 ((hL i).1 hi).2
    · intro i hi hni
      have hfi : m.heFace i ≠ f := fun e => hni ((hL i).2 ⟨hi, e⟩)
      refine ⟨nx i hi hfi, ?_, fo i hi hfi⟩
      by_cases x : m.ext i
      · have := (ex i hi).2 x
        unfold ext at this
        simp only [List.mem_cons, List.mem_range'_1]; omega
      · rw [fo i hi hfi (Valid.face_lt x)]
        have := Valid.face_lt x
        simp only [List.mem_cons, List.mem_range'_1]; omega

/-- A pentagon with its boundary loop. -/
def pentagon : Mesh := ofLists [2, 9, 4, 1, 6, 3, 8, 5, 0, 7] [0, 1, 1, 2, 2, 3, 3, 4, 4, 0]
  [0, 1, 0, 1, 0, 1, 0, 1, 0, 1] [0, 2, 4, 6, 8] [0, 1] 1

theorem pentagon_valid : pentagon.Valid := valid_of_check (by decide +kernel)

/-- The hypotheses are met by the pentagon, `d = 5`. -/
example : pentagon.Valid ∧ pentagon.fLive 0 ∧ 0 < pentagon.nFFill ∧
    (∀ i, i ∈ ({0, 2, 4, 6, 8} : Finset ℕ) ↔ pentagon.heLive i ∧ pentagon.heFace i = 0) ∧
    3 ≤ ({0, 2, 4, 6, 8} : Finset ℕ).card ∧
    (∃ m', pentagon.triangulate 0 = .ok (m', [0, 1, 2]) ∧ m'.nE = 7) := by
  refine ⟨pentagon_valid, by decide +kernel, by decide +kernel, ?_, by decide +kernel, ⟨_, rfl, by decide +kernel⟩⟩
  intro i
  by_cases h : i < 10
  · interval_cases i <;> decide +kernel
  · refine iff_of_false ?_ (fun h' => h h'.1.1)
    simp; omega

end GC
