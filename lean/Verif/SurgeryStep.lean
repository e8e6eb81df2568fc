import Verif.Surgery
import Verif.Props.SeparateEdge
import Verif.Props.Nav
import Verif.MeshCollapseInt

/-! # One cut (lemmas for C84) -/

namespace GC
namespace Mesh
variable {m m' : Mesh}

/-! ### The wrong count of interior halfedges -/

/-- The mesh with a count of interior halfedges that is too large by `k`. -/
def bump (k : ℕ) (m : Mesh) : Mesh := { m with nInt := m.nInt + k }

theorem map_guard {α β : Type} (c : Prop) [Decidable c] (x : Err) (y : Res α) (f : α → β) :
    (if c then .error x else y : Res α).map f = if c then .error x else y.map f := by
  split <;> rfl

theorem getNewEdgeTriple_bump (k : ℕ) (m : Mesh) (b : Bool) :
    (bump k m).getNewEdgeTriple b = (m.getNewEdgeTriple b).map (fun p => (bump k p.1, p.2)) := by
  have e : ∀ c : Bool, (if c then m.nInt + k + 1 else m.nInt + k + 2) = (if c then m.nInt + 1 else m.nInt + 2) + k := by
    intro c; split <;> omega
  unfold getNewEdgeTriple
  simp only [bump, e]
  rw [map_guard, map_guard, map_guard]
  rfl

theorem getNewVertex_bump (k : ℕ) (m : Mesh) : (bump k m).getNewVertex = (m.getNewVertex).map (fun p => (bump k p.1, p.2)) := by
  unfold getNewVertex
  rw [map_guard, map_guard]
  rfl

theorem getNewBoundaryLoop_bump (k : ℕ) (m : Mesh) :
    (bump k m).getNewBoundaryLoop = (m.getNewBoundaryLoop).map (fun p => (bump k p.1, p.2)) := by
  unfold getNewBoundaryLoop
  have e : (if (bump k m).nFFill + (bump k m).nBL < (bump k m).nFCap then bump k m else (bump k m).expandFaceStorage) =
      bump k (if m.nFFill + m.nBL < m.nFCap then m else m.expandFaceStorage) := by
    by_cases h : m.nFFill + m.nBL < m.nFCap
    · rw [if_pos h, if_pos (show (bump k m).nFFill + (bump k m).nBL < (bump k m).nFCap from h)]
    · rw [if_neg h, if_neg (show ¬ (bump k m).nFFill + (bump k m).nBL < (bump k m).nFCap from h)]; rfl
  simp only [e]
  generalize (if m.nFFill + m.nBL < m.nFCap then m else m.expandFaceStorage) = m1
  rw [map_guard, map_guard]
  rfl

theorem separateWrites2_bump (k : ℕ) (m : Mesh) (a b c d : ℕ) :
    (bump k m).separateWrites2 a b c d = (m.separateWrites2 a b c d).map (bump k) := by
  unfold separateWrites2
  simp only [bump]
  split <;> rfl

theorem ensure_bump (k : ℕ) (m : Mesh) (e : ℕ) :
    (bump k m).ensureEdgeHasInteriorHalfedge e = (m.ensureEdgeHasInteriorHalfedge e).map (fun p => (bump k p.1, p.2)) := by
  unfold ensureEdgeHasInteriorHalfedge switchHalfedgeSides
  by_cases h : m.heIsInterior (eHalfedge e)
  · rw [if_neg (not_not.2 h), if_neg (show ¬ ¬ (bump k m).heIsInterior (eHalfedge e) from not_not.2 h)]; rfl
  · rw [if_pos h, if_pos (show ¬ (bump k m).heIsInterior (eHalfedge e) from h)]
    have e1 : ∀ i, (bump k m).prevOrbitVertex i = m.prevOrbitVertex i := fun _ => rfl
    rw [e1, e1]
    cases m.prevOrbitVertex (eHalfedge e) with
    | error x => rfl
    | ok a =>
      cases m.prevOrbitVertex (twin (eHalfedge e)) with
      | error x => rfl
      | ok b => rfl

theorem separateEdge_bump (k : ℕ) (m : Mesh) (e : ℕ) :
    (bump k m).separateEdge e = (m.separateEdge e).map (fun p => (bump k p.1, p.2)) := by
  have c1 : ∀ he p, (bump k m).separateCase1 he p = (m.separateCase1 he p).map (fun p => (bump k p.1, p.2)) := by
    intro he p
    unfold separateCase1
    rw [getNewEdgeTriple_bump]
    cases m.getNewEdgeTriple true with
    | error x => rfl
    | ok q =>
      obtain ⟨m1, h1⟩ := q
      simp only [Except.map, getNewBoundaryLoop_bump]
      cases m1.getNewBoundaryLoop <;> rfl
  have c2 : ∀ he p s, (bump k m).separateCase2 he p s = (m.separateCase2 he p s).map (fun p => (bump k p.1, p.2)) := by
    intro he p s
    unfold separateCase2
    rw [getNewEdgeTriple_bump]
    cases m.getNewEdgeTriple true with
    | error x => rfl
    | ok q =>
      obtain ⟨m1, h1⟩ := q
      simp only [Except.map, getNewVertex_bump]
      cases m1.getNewVertex with
      | error x => rfl
      | ok q =>
        obtain ⟨m2, v⟩ := q
        simp only [separateWrites2_bump]
        cases m2.separateWrites2 he p h1 v with
        | error x => rfl
        | ok m3 =>
          simp only [Except.map, ensure_bump]
          cases m3.ensureEdgeHasInteriorHalfedge (heEdge he) <;> rfl
  have e1 : ∀ i, (bump k m).prevOrbitFace i = m.prevOrbitFace i := fun _ => rfl
  have e2 : ∀ e, (bump k m).eIsBoundary e ↔ m.eIsBoundary e := fun _ => Iff.rfl
  have e3 : ∀ v, (bump k m).vIsBoundary v ↔ m.vIsBoundary v := fun _ => Iff.rfl
  have e4 : (bump k m).heVertex = m.heVertex := rfl
  unfold separateEdge
  simp only [e1, c1, c2, e2, e3, e4]
  split_ifs
  · rfl
  all_goals first
    | (split <;> rfl)
    | rfl

/-! ### The counters -/

theorem separateEdge_fills {e : ℕ} {r : ℕ × ℕ} (h : m.separateEdge e = .ok (m', r)) :
    m'.nHeFill = m.nHeFill + 2 ∧ m'.nEFill = m.nEFill + 1 ∧ m'.nVFill ≤ m.nVFill + 1 ∧ m'.nFFill = m.nFFill ∧ m'.nBL ≤ m.nBL + 1 := by
  have t : ∀ {m m' : Mesh} {b i}, m.getNewEdgeTriple b = .ok (m', i) → m'.nHeFill = m.nHeFill + 2 ∧ m'.nEFill = m.nEFill + 1 ∧
      m'.nVFill = m.nVFill ∧ m'.nFFill = m.nFFill ∧ m'.nBL = m.nBL := by
    intro m m' b i h
    unfold getNewEdgeTriple at h
    simp only at h
    split_ifs at h
    all_goals first
      | (cases h; done)
      | (simp only [Except.ok.injEq, Prod.mk.injEq] at h; obtain ⟨rfl, -⟩ := h; exact ⟨rfl, rfl, rfl, rfl, rfl⟩)
  have g : ∀ {m m' : Mesh} {b}, m.ensureEdgeHasInteriorHalfedge e = .ok (m', b) → m'.nHeFill = m.nHeFill ∧ m'.nEFill = m.nEFill ∧
      m'.nVFill = m.nVFill ∧ m'.nFFill = m.nFFill ∧ m'.nBL = m.nBL := by
    intro m m' b h
    unfold ensureEdgeHasInteriorHalfedge switchHalfedgeSides at h
    split_ifs at h
    · simp only [Except.ok.injEq, Prod.mk.injEq] at h
      obtain ⟨rfl, -⟩ := h
      exact ⟨rfl, rfl, rfl, rfl, rfl⟩
    · cases h1 : m.prevOrbitVertex (eHalfedge e) with
      | error x => rw [h1] at h; cases h
      | ok a =>
        cases h2 : m.prevOrbitVertex (twin (eHalfedge e)) with
        | error x => rw [h1, h2] at h; cases h
        | ok c =>
          rw [h1, h2] at h
          simp only [Except.ok.injEq, Prod.mk.injEq] at h
          obtain ⟨rfl, -⟩ := h
          exact ⟨rfl, rfl, rfl, rfl, rfl⟩
  have k1 : ∀ {he p}, m.separateCase1 he p = .ok (m', r) → m'.nHeFill = m.nHeFill + 2 ∧ m'.nEFill = m.nEFill + 1 ∧ m'.nVFill ≤ m.nVFill + 1 ∧
      m'.nFFill = m.nFFill ∧ m'.nBL ≤ m.nBL + 1 := by
    intro he p h
    unfold separateCase1 at h
    cases h1 : m.getNewEdgeTriple true with
    | error x => rw [h1] at h; cases h
    | ok q =>
      obtain ⟨m1, i⟩ := q
      obtain ⟨a1, a2, a3, a4, a5⟩ := t h1
      rw [h1] at h
      simp only at h
      cases h2 : m1.getNewBoundaryLoop with
      | error x => rw [h2] at h; cases h
      | ok q =>
        obtain ⟨m2, b⟩ := q
        rw [h2] at h
        simp only [Except.ok.injEq, Prod.mk.injEq] at h
        obtain ⟨rfl, -⟩ := h
        unfold getNewBoundaryLoop at h2
        by_cases c : m1.nFFill + m1.nBL < m1.nFCap
        · simp only [if_pos c] at h2
          split_ifs at h2
          simp only [Except.ok.injEq, Prod.mk.injEq] at h2
          obtain ⟨rfl, -⟩ := h2
          simp only [separateWrites1]; omega
        · simp only [if_neg c, expandFaceStorage] at h2
          split_ifs at h2
          simp only [Except.ok.injEq, Prod.mk.injEq] at h2
          obtain ⟨rfl, -⟩ := h2
          simp only [separateWrites1]; omega
  have k2 : ∀ {he p s}, heEdge he = e → m.separateCase2 he p s = .ok (m', r) → m'.nHeFill = m.nHeFill + 2 ∧ m'.nEFill = m.nEFill + 1 ∧
      m'.nVFill ≤ m.nVFill + 1 ∧ m'.nFFill = m.nFFill ∧ m'.nBL ≤ m.nBL + 1 := by
    intro he p s hh h
    unfold separateCase2 at h
    rw [hh] at h
    cases h1 : m.getNewEdgeTriple true with
    | error x => rw [h1] at h; cases h
    | ok q =>
      obtain ⟨m1, i⟩ := q
      obtain ⟨a1, a2, a3, a4, a5⟩ := t h1
      rw [h1] at h
      simp only at h
      cases h2 : m1.getNewVertex with
      | error x => rw [h2] at h; cases h
      | ok q =>
        obtain ⟨m2, v⟩ := q
        rw [h2] at h
        simp only at h
        cases h3 : m2.separateWrites2 he p i v with
        | error x => rw [h3] at h; cases h
        | ok m3 =>
          rw [h3] at h
          simp only at h
          cases h4 : m3.ensureEdgeHasInteriorHalfedge e with
          | error x => rw [h4] at h; cases h
          | ok q =>
            obtain ⟨m4, b⟩ := q
            obtain ⟨b1, b2, b3, b4, b5⟩ := g h4
            rw [h4] at h
            simp only [Except.ok.injEq, Prod.mk.injEq] at h
            obtain ⟨rfl, -⟩ := h
            unfold getNewVertex at h2
            simp only at h2
            unfold separateWrites2 at h3
            simp only at h3
            split at h3
            · cases h3
            · simp only [Except.ok.injEq] at h3
              subst h3
              split_ifs at h2
              all_goals
                simp only [Except.ok.injEq, Prod.mk.injEq] at h2
                obtain ⟨rfl, -⟩ := h2
                simp only at b1 b2 b3 b4 b5
                omega
  have he1 : heEdge (eHalfedge e) = e := by unfold heEdge eHalfedge; omega
  have he2 : heEdge (twin (eHalfedge e)) = e := by unfold heEdge eHalfedge; rw [twin_two_mul]; omega
  unfold separateEdge at h
  dsimp only at h
  by_cases c0 : m.eIsBoundary e
  · rw [if_pos c0] at h; cases h
  rw [if_neg c0] at h
  generalize hs : decide (m.vIsBoundary (m.heVertex (twin (eHalfedge e))) ∧ ¬ m.vIsBoundary (m.heVertex (eHalfedge e))) = sw at h
  have hhe : heEdge (if sw = true then twin (eHalfedge e) else eHalfedge e) = e := by split <;> assumption
  generalize (if sw = true then twin (eHalfedge e) else eHalfedge e) = he at h hhe
  split at h
  · cases h
  · split at h
    · exact k1 h
    · split at h
      · exact k2 hhe h
      · cases h

/-! ### One cut -/

/-- What one call of `separateEdge(e)` does to the halfedges of the faces, which it moves by `σ`. -/
structure OneCut (m m' : Mesh) (e : ℕ) (σ : ℕ → ℕ) : Prop where
  fix : ∀ i, m.heLive i → i / 2 ≠ e → σ i = i
  inj : ∀ i j, m.heLive i → m.heLive j → σ i = σ j → i = j
  keep : ∀ i, m.heLive i → ¬ m.ext i → m'.heLive (σ i) ∧ ¬ m'.ext (σ i) ∧ m'.heFace (σ i) = m.heFace i ∧ m'.heNext (σ i) = σ (m.heNext i)
  onto : ∀ j, m'.heLive j → ¬ m'.ext j → ∃ i, m.heLive i ∧ ¬ m.ext i ∧ σ i = j
  rim : ∀ i, i / 2 = e → m'.ext (twin (σ i))
  edge : ∀ i, i / 2 = e → σ i / 2 = e ∨ σ i / 2 = m.nEFill
  edge' : ∃ i, i / 2 = e ∧ σ i / 2 = e
  same : ∀ i j, m.heLive i → ¬ m.ext i → m.heLive j → ¬ m.ext j → m'.heVertex (σ i) = m'.heVertex (σ j) → m.heVertex i = m.heVertex j
  stay : ∀ i, m.heLive i → ¬ m.ext i →
    (¬ m.OnBdy (m.heVertex i) ∨ m.heVertex i ≠ m.heVertex (2 * e) ∧ m.heVertex i ≠ m.heVertex (2 * e + 1)) → m'.heVertex (σ i) = m.heVertex i

theorem half_or (i : ℕ) : i = 2 * (i / 2) ∨ i = 2 * (i / 2) + 1 := by omega

theorem Separated.oneCut (hv : m.Valid) {e : ℕ} {r : ℕ × ℕ} (he : m.heLive (2 * e))
    (hb : ¬ (m.OnBdy (m.heVertex (2 * e)) ∧ m.OnBdy (m.heVertex (2 * e + 1)))) (S : Separated m m' e r) :
    ∃ σ, OneCut m m' e σ ∧ r = (σ (2 * e), σ (2 * e + 1)) := by
  obtain ⟨σ, fix, rfl, inj, keep⟩ := S.place
  have hE : ∀ i, i / 2 = e → i = 2 * e ∨ i = 2 * e + 1 := fun i h => by omega
  have rim : ∀ i, i / 2 = e → m'.ext (twin (σ i)) := by
    intro i h
    rcases hE i h with rfl | rfl
    · exact S.bdy.1
    · exact S.bdy.2
  have hedge : ∀ x, x = σ (2 * e) / 2 ∨ x = σ (2 * e + 1) / 2 ↔ x = e ∨ x = m.nEFill := by
    intro x
    have := Set.ext_iff.1 S.edges x
    simpa using this
  have nl : ¬ m.vLive m.nVFill := fun h => absurd h.1 (lt_irrefl _)
  refine ⟨σ, ⟨fun i li h => fix i li (by omega) (by omega), inj, fun i li xi => ?_, fun j lj xj => ?_, rim, fun i h => ?_, ?_, ?_, ?_⟩, rfl⟩
  · obtain ⟨a1, a2, a3, a4, -⟩ := keep i li xi
    exact ⟨a1, a3, a2, a4⟩
  · obtain ⟨-, -, ⟨l, -, hl, cl⟩, -⟩ := C16_ranges m hv
    obtain ⟨-, -, ⟨l', -, hl', cl'⟩, -⟩ := C16_ranges m' S.valid
    have nd : l.Nodup := hl.1.imp (fun h => (ne_of_lt h))
    have nd2 : (l.map σ).Nodup := (List.nodup_map_iff_inj_on nd).2 (fun x hx y hy h => inj x y ((hl.2 x).1 hx).1 ((hl.2 y).1 hy).1 h)
    have sub : (l.map σ) ⊆ l' := by
      intro y hy
      obtain ⟨x, hx, rfl⟩ := List.mem_map.1 hy
      obtain ⟨lx, xx⟩ := (hl.2 x).1 hx
      obtain ⟨a1, -, a3, -⟩ := keep x lx xx
      exact (hl'.2 _).2 ⟨a1, a3⟩
    have pm := (nd2.subperm sub).perm_of_length_le (by rw [List.length_map, cl, cl', S.count.2.2.2])
    obtain ⟨x, hx, e⟩ := List.mem_map.1 (pm.mem_iff.2 ((hl'.2 j).2 ⟨lj, xj⟩))
    exact ⟨x, ((hl.2 x).1 hx).1, ((hl.2 x).1 hx).2, e⟩
  · rcases hE i h with rfl | rfl
    · exact (hedge _).1 (.inl rfl)
    · exact (hedge _).1 (.inr rfl)
  · rcases (hedge e).2 (.inl rfl) with h | h
    · exact ⟨2 * e, by omega, h.symm⟩
    · exact ⟨2 * e + 1, by omega, h.symm⟩
  · intro i j li xi lj xj h
    obtain ⟨-, -, -, -, a⟩ := keep i li xi
    obtain ⟨-, -, -, -, b⟩ := keep j lj xj
    rcases a with a | ⟨a, a1, a2⟩ <;> rcases b with b | ⟨b, b1, b2⟩
    · rw [← a, ← b, h]
    · exact absurd (hv.vertex_live i li) (by rw [← a, h, b]; exact nl)
    · exact absurd (hv.vertex_live j lj) (by rw [← b, ← h, a]; exact nl)
    · rcases a2 with a2 | a2 <;> rcases b2 with b2 | b2
      · rw [a2, b2]
      · exact absurd ⟨a2 ▸ a1, b2 ▸ b1⟩ hb
      · exact absurd ⟨b2 ▸ b1, a2 ▸ a1⟩ hb
      · rw [a2, b2]
  · intro i li xi h
    obtain ⟨-, -, -, -, a⟩ := keep i li xi
    rcases a with a | ⟨-, a1, a2⟩
    · exact a
    · rcases h with h | ⟨h1, h2⟩
      · exact absurd a1 h
      · rcases a2 with a2 | a2
        · exact absurd a2 h1
        · exact absurd a2 h2

theorem OneCut.glue (hv : m.Valid) {e : ℕ} {σ : ℕ → ℕ} (C : OneCut m m' e σ) {z : ℕ} (lz : m.heLive z) (xz : ¬ m.ext z)
    (h : ¬ m'.ext (twin (σ z))) (hl : m'.heLive (twin (σ z))) : z / 2 ≠ e ∧ σ z = z ∧ ¬ m.ext (twin z) ∧ σ (twin z) = twin z := by
  have ze : z / 2 ≠ e := fun c => h (C.rim z c)
  have sz := C.fix z lz ze
  rw [sz] at h hl
  obtain ⟨w, lw, xw, hw⟩ := C.onto _ hl h
  have we : w / 2 ≠ e := by
    intro c
    have := C.rim w c
    rw [hw, twin_twin] at this
    exact (C.keep z lz xz).2.1 (by rw [sz]; exact this)
  rw [C.fix w lw we] at hw
  subst hw
  exact ⟨ze, sz, xw, C.fix _ lw we⟩

theorem OneCut.bdy_iff (hv : m.Valid) (hv' : m'.Valid) {e : ℕ} {σ : ℕ → ℕ} (C : OneCut m m' e σ) (he : m.heLive (2 * e)) {i : ℕ}
    (li : m.heLive i) (xi : ¬ m.ext i) :
    m'.OnBdy (m'.heVertex (σ i)) ↔ m.OnBdy (m.heVertex i) ∨ m.heVertex i = m.heVertex (2 * e) ∨ m.heVertex i = m.heVertex (2 * e + 1) := by
  constructor
  · rintro ⟨j, lj, hj, xj⟩
    obtain ⟨k, lk, xk, hk⟩ := C.onto _ (hv'.twin_live _ lj) (hv'.ext_twin lj xj)
    have e1 : m'.heVertex (σ (m.heNext k)) = m'.heVertex (σ i) := by
      rw [← (C.keep k lk xk).2.2.2, hk, hv'.vertex_vNext lj, hj]
    have e2 := C.same _ _ (hv.next_live _ lk) (by rw [hv.ext_next lk]; exact xk) li xi e1
    rw [hv.vertex_next lk] at e2
    by_cases c : k / 2 = e
    · right
      rcases half_or k with h | h <;> rw [c] at h <;> subst h
      · rw [twin_two_mul] at e2; exact .inr e2.symm
      · rw [twin_two_mul_add] at e2; exact .inl e2.symm
    · left
      refine ⟨twin k, hv.twin_live _ lk, e2, ?_⟩
      by_contra x
      have := (C.keep _ (hv.twin_live _ lk) x).2.1
      rw [C.fix _ (hv.twin_live _ lk) (by rw [twin_div]; exact c)] at this
      rw [C.fix _ lk c] at hk
      rw [hk, twin_twin] at this
      exact this xj
  · intro h
    by_contra x
    have key : ∀ j, m.heLive j → m.heVertex j = m.heVertex i → m.heLive j ∧ ¬ m.ext j ∧ m'.heVertex (σ j) = m'.heVertex (σ i) := by
      intro j lj hj
      refine hv.out_closed li (P := fun j => m.heLive j ∧ ¬ m.ext j ∧ m'.heVertex (σ j) = m'.heVertex (σ i)) ⟨li, xi, rfl⟩ ?_ lj hj
      rintro z ⟨lz, xz, hz⟩
      have l1 := (C.keep z lz xz).1
      have l2 := hv'.twin_live _ l1
      have x2 : ¬ m'.ext (twin (σ z)) := by
        intro c
        refine x ⟨m'.heNext (twin (σ z)), hv'.next_live _ l2, ?_, (hv'.ext_next l2).2 c⟩
        rw [hv'.vertex_vNext l1, hz]
      obtain ⟨-, g2, g3, g4⟩ := C.glue hv lz xz x2 l2
      have lt := hv.twin_live _ lz
      refine ⟨hv.next_live _ lt, by rw [hv.ext_next lt]; exact g3, ?_⟩
      rw [← (C.keep _ lt g3).2.2.2, g4]
      rw [g2] at l1 hz
      rw [hv'.vertex_vNext l1, hz]
    have key2 : ∀ j, m.heLive j → m.heVertex j = m.heVertex i → j / 2 ≠ e := by
      intro j lj hj
      obtain ⟨-, xj, hj'⟩ := key j lj hj
      have l1 := (C.keep j lj xj).1
      have l2 := hv'.twin_live _ l1
      refine (C.glue hv lj xj (fun c => ?_) l2).1
      refine x ⟨m'.heNext (twin (σ j)), hv'.next_live _ l2, ?_, (hv'.ext_next l2).2 c⟩
      rw [hv'.vertex_vNext l1, hj']
    rcases h with ⟨j, lj, hj, xj⟩ | h | h
    · exact (key j lj hj).2.1 xj
    · exact key2 _ he h.symm (by omega)
    · exact key2 (2 * e + 1) (by rw [← twin_two_mul]; exact hv.twin_live _ he) h.symm (by omega)

/-! ### Many cuts -/

/-- The vertices touched by a set of edges. -/
def touched (m : Mesh) (P : Finset ℕ) : Finset ℕ := P.biUnion (fun e => {m.heVertex (2 * e), m.heVertex (2 * e + 1)})

theorem mem_touched {P : Finset ℕ} {v : ℕ} : v ∈ m.touched P ↔ ∃ e ∈ P, v = m.heVertex (2 * e) ∨ v = m.heVertex (2 * e + 1) := by
  simp [touched]

/-- `m` is `m0` cut along the edges in `P`; the halfedges of the faces are moved by `ρ`. -/
structure CutOpen (m0 m : Mesh) (P : Finset ℕ) (ρ : ℕ → ℕ) : Prop where
  /-- a valid triangle mesh -/
  valid : m.Valid
  tri : ∀ i, m.heLive i → ¬ m.ext i → m.heNext (m.heNext (m.heNext i)) = i
  /-- only the halfedges of the cut edges get a new place, and these places are those of cut edges or new -/
  fix : ∀ i, m0.heLive i → i / 2 ∉ P → ρ i = i
  edge : ∀ i, m0.heLive i → ¬ m0.ext i → i / 2 ∈ P → ρ i / 2 ∈ P ∨ m0.nEFill ≤ ρ i / 2
  /-- `ρ` is a bijection between the halfedges of the faces, with the same faces and successors -/
  inj : ∀ i j, m0.heLive i → ¬ m0.ext i → m0.heLive j → ¬ m0.ext j → ρ i = ρ j → i = j
  keep : ∀ i, m0.heLive i → ¬ m0.ext i → m.heLive (ρ i) ∧ ¬ m.ext (ρ i) ∧ m.heFace (ρ i) = m0.heFace i ∧ m.heNext (ρ i) = ρ (m0.heNext i)
  onto : ∀ j, m.heLive j → ¬ m.ext j → ∃ i, m0.heLive i ∧ ¬ m0.ext i ∧ ρ i = j
  /-- both sides of a cut edge are on the boundary -/
  rim : ∀ i, m0.heLive i → ¬ m0.ext i → i / 2 ∈ P → m.ext (twin (ρ i))
  /-- corners with the same vertex had the same vertex; vertices without cuts stay -/
  same : ∀ i j, m0.heLive i → ¬ m0.ext i → m0.heLive j → ¬ m0.ext j → m.heVertex (ρ i) = m.heVertex (ρ j) → m0.heVertex i = m0.heVertex j
  stay : ∀ i, m0.heLive i → ¬ m0.ext i → m0.heVertex i ∉ m0.touched P → m.heVertex (ρ i) = m0.heVertex i
  bdy : ∀ i, m0.heLive i → ¬ m0.ext i → (m.OnBdy (m.heVertex (ρ i)) ↔ m0.heVertex i ∈ m0.touched P ∨ m0.OnBdy (m0.heVertex i))
  /-- counts -/
  count : m.nHe = m0.nHe + 2 * P.card ∧ m.nE = m0.nE + P.card ∧ m.nF = m0.nF ∧ m.nInt = m0.nInt ∧
    (P.Nonempty → m.nV + 1 = m0.nV + P.card ∧ m.nBL = m0.nBL + 1) ∧ (P = ∅ → m.nV = m0.nV ∧ m.nBL = m0.nBL)
  fill : m.nHeFill = m0.nHeFill + 2 * P.card ∧ m.nEFill = m0.nEFill + P.card ∧ m.nVFill ≤ m0.nVFill + P.card ∧ m.nFFill = m0.nFFill ∧
    m.nBL ≤ m0.nBL + P.card

theorem CutOpen.refl (hv : m.Valid) (tri : ∀ i, m.heLive i → ¬ m.ext i → m.heNext (m.heNext (m.heNext i)) = i) : CutOpen m m ∅ id where
  valid := hv
  tri := tri
  fix _ _ _ := rfl
  edge _ _ _ h := absurd h (Finset.notMem_empty _)
  inj _ _ _ _ _ _ h := h
  keep _ h x := ⟨h, x, rfl, rfl⟩
  onto j h x := ⟨j, h, x, rfl⟩
  rim _ _ _ h := absurd h (Finset.notMem_empty _)
  same _ _ _ _ _ _ h := h
  stay _ _ _ _ := rfl
  bdy _ _ _ := by simp [touched]
  count := by simp
  fill := by simp

theorem CutOpen.step {m0 : Mesh} (hv0 : m0.Valid) {P : Finset ℕ} {ρ : ℕ → ℕ} (I : CutOpen m0 m P ρ) {e : ℕ} (heP : e ∉ P)
    (l0 : m0.heLive (2 * e)) (b0 : ¬ m0.OnBdy (m0.heVertex (2 * e))) (b1 : ¬ m0.OnBdy (m0.heVertex (2 * e + 1)))
    (hconn : P.Nonempty → m0.heVertex (2 * e) ∈ m0.touched P ∨ m0.heVertex (2 * e + 1) ∈ m0.touched P)
    (hnot : ¬ (m0.heVertex (2 * e) ∈ m0.touched P ∧ m0.heVertex (2 * e + 1) ∈ m0.touched P))
    {r : ℕ × ℕ} (S : Separated m m' e r)
    (hf : m'.nHeFill = m.nHeFill + 2 ∧ m'.nEFill = m.nEFill + 1 ∧ m'.nVFill ≤ m.nVFill + 1 ∧ m'.nFFill = m.nFFill ∧ m'.nBL ≤ m.nBL + 1) :
    ∃ σ, OneCut m m' e σ ∧ r = (σ (2 * e), σ (2 * e + 1)) ∧ CutOpen m0 m' (insert e P) (σ ∘ ρ) := by
  have x0 : ¬ m0.ext (2 * e) := hv0.edge_int e l0
  have l1 : m0.heLive (2 * e + 1) := by rw [← twin_two_mul]; exact hv0.twin_live _ l0
  have x1 : ¬ m0.ext (2 * e + 1) := fun c => b1 ⟨_, l1, rfl, c⟩
  have eF : e < m0.nEFill := by have := l0.1; have := hv0.he_fill; omega
  have r0 : ρ (2 * e) = 2 * e := I.fix _ l0 (by rw [Nat.mul_div_cancel_left _ (by norm_num)]; exact heP)
  have r1 : ρ (2 * e + 1) = 2 * e + 1 := I.fix _ l1 (by rw [show (2 * e + 1) / 2 = e by omega]; exact heP)
  have l0' : m.heLive (2 * e) := r0 ▸ (I.keep _ l0 x0).1
  have hb0 := I.bdy _ l0 x0
  have hb1 := I.bdy _ l1 x1
  rw [r0] at hb0
  rw [r1] at hb1
  have hb : ¬ (m.OnBdy (m.heVertex (2 * e)) ∧ m.OnBdy (m.heVertex (2 * e + 1))) := by
    rintro ⟨c0, c1⟩
    exact hnot ⟨(hb0.1 c0).resolve_right b0, (hb1.1 c1).resolve_right b1⟩
  obtain ⟨σ, C, hr⟩ := S.oneCut I.valid l0' hb
  have hlive : ∀ i, m0.heLive i → i / 2 ∉ P → m.heLive i := by
    intro i li hi
    by_cases x : m0.ext i
    · have lt := hv0.twin_live _ li
      have := (I.keep _ lt (hv0.ext_twin li x)).1
      rw [I.fix _ lt (by rw [twin_div]; exact hi)] at this
      have := I.valid.twin_live _ this
      rwa [twin_twin] at this
    · have := (I.keep _ li x).1
      rwa [I.fix _ li hi] at this
  have hρe : ∀ i, m0.heLive i → ¬ m0.ext i → i / 2 ∈ P → ρ i / 2 ≠ e := by
    intro i li xi hi c
    rcases I.edge i li xi hi with h | h
    · exact heP (c ▸ h)
    · omega
  have hE : ∀ i, i / 2 = e → i = 2 * e ∨ i = 2 * e + 1 := fun i h => by omega
  have hρ : ∀ i, i / 2 = e → ρ i = i := by
    intro i h
    rcases hE i h with rfl | rfl
    · exact r0
    · exact r1
  have ht : ∀ v, v ∈ m0.touched (insert e P) ↔ v = m0.heVertex (2 * e) ∨ v = m0.heVertex (2 * e + 1) ∨ v ∈ m0.touched P := by
    intro v
    rw [mem_touched, mem_touched]
    constructor
    · rintro ⟨f, hf, h⟩
      rcases Finset.mem_insert.1 hf with rfl | hf
      · tauto
      · exact .inr (.inr ⟨f, hf, h⟩)
    · rintro (h | h | ⟨f, hf, h⟩)
      · exact ⟨e, Finset.mem_insert_self _ _, .inl h⟩
      · exact ⟨e, Finset.mem_insert_self _ _, .inr h⟩
      · exact ⟨f, Finset.mem_insert_of_mem hf, h⟩
  refine ⟨σ, C, hr, ⟨S.valid, ?_, ?_, ?_, ?_, ?_, ?_, ?_, ?_, ?_, ?_, ?_, ?_⟩⟩
  · intro j lj xj
    obtain ⟨i, li, xi, rfl⟩ := C.onto j lj xj
    have ln := I.valid.next_live _ li
    have xn : ¬ m.ext (m.heNext i) := by rw [I.valid.ext_next li]; exact xi
    have xnn : ¬ m.ext (m.heNext (m.heNext i)) := by rw [I.valid.ext_next ln]; exact xn
    rw [(C.keep _ li xi).2.2.2, (C.keep _ ln xn).2.2.2, (C.keep _ (I.valid.next_live _ ln) xnn).2.2.2, I.tri i li xi]
  · intro i li hi
    rw [Finset.mem_insert, not_or] at hi
    simp only [Function.comp]
    rw [I.fix i li hi.2, C.fix i (hlive i li hi.2) hi.1]
  · intro i li xi hi
    simp only [Function.comp]
    rcases Finset.mem_insert.1 hi with h | h
    · rw [hρ i h]
      rcases C.edge i h with c | c
      · exact .inl (c ▸ Finset.mem_insert_self _ _)
      · right
        rw [c, I.fill.2.1]
        omega
    · rw [C.fix _ (I.keep i li xi).1 (hρe i li xi h)]
      rcases I.edge i li xi h with c | c
      · exact .inl (Finset.mem_insert_of_mem c)
      · exact .inr c
  · intro i j li xi lj xj h
    exact I.inj i j li xi lj xj (C.inj _ _ (I.keep i li xi).1 (I.keep j lj xj).1 h)
  · intro i li xi
    obtain ⟨a1, a2, a3, a4⟩ := I.keep i li xi
    obtain ⟨c1, c2, c3, c4⟩ := C.keep _ a1 a2
    exact ⟨c1, c2, c3.trans a3, by simp only [Function.comp]; rw [c4, a4]⟩
  · intro j lj xj
    obtain ⟨k, lk, xk, rfl⟩ := C.onto j lj xj
    obtain ⟨i, li, xi, rfl⟩ := I.onto k lk xk
    exact ⟨i, li, xi, rfl⟩
  · intro i li xi hi
    simp only [Function.comp]
    rcases Finset.mem_insert.1 hi with h | h
    · rw [hρ i h]
      exact C.rim i h
    · obtain ⟨a1, a2, -⟩ := I.keep i li xi
      by_contra c
      exact (C.glue I.valid a1 a2 c (S.valid.twin_live _ (C.keep _ a1 a2).1)).2.2.1 (I.rim i li xi h)
  · intro i j li xi lj xj h
    obtain ⟨a1, a2, -⟩ := I.keep i li xi
    obtain ⟨c1, c2, -⟩ := I.keep j lj xj
    exact I.same i j li xi lj xj (C.same _ _ a1 a2 c1 c2 h)
  · intro i li xi hi
    rw [ht, not_or, not_or] at hi
    obtain ⟨a1, a2, -⟩ := I.keep i li xi
    simp only [Function.comp]
    rw [C.stay _ a1 a2 (.inr ⟨fun c => hi.1 (I.same i _ li xi l0 x0 (by rw [r0]; exact c)),
      fun c => hi.2.1 (I.same i _ li xi l1 x1 (by rw [r1]; exact c))⟩), I.stay i li xi hi.2.2]
  · intro i li xi
    obtain ⟨a1, a2, -⟩ := I.keep i li xi
    simp only [Function.comp]
    rw [C.bdy_iff I.valid S.valid l0' a1 a2, I.bdy i li xi, ht]
    constructor
    · rintro ((h | h) | h | h)
      · exact .inl (.inr (.inr h))
      · exact .inr h
      · exact .inl (.inl (I.same i _ li xi l0 x0 (by rw [r0]; exact h)))
      · exact .inl (.inr (.inl (I.same i _ li xi l1 x1 (by rw [r1]; exact h))))
    · rintro ((h | h | h) | h)
      · by_cases c : m0.heVertex i ∈ m0.touched P
        · exact .inl (.inl c)
        · refine .inr (.inl ?_)
          rw [I.stay i li xi c, h]
          have := I.stay _ l0 x0 (h ▸ c)
          rw [r0] at this
          exact this.symm
      · by_cases c : m0.heVertex i ∈ m0.touched P
        · exact .inl (.inl c)
        · refine .inr (.inr ?_)
          rw [I.stay i li xi c, h]
          have := I.stay _ l1 x1 (h ▸ c)
          rw [r1] at this
          exact this.symm
      · exact .inl (.inl h)
      · exact .inl (.inr h)
  · obtain ⟨k1, k2, k3, k4, k5, k6⟩ := I.count
    obtain ⟨s1, s2, s3, s4⟩ := S.count
    rw [Finset.card_insert_of_notMem heP]
    refine ⟨by omega, by omega, by omega, by omega, fun _ => ?_, fun h => absurd h (Finset.insert_ne_empty _ _)⟩
    by_cases c : P.Nonempty
    · obtain ⟨q1, q2⟩ := k5 c
      have : m.OnBdy (m.heVertex (2 * e)) ∨ m.OnBdy (m.heVertex (2 * e + 1)) := (hconn c).imp (fun h => hb0.2 (.inl h)) (fun h => hb1.2 (.inl h))
      obtain ⟨q3, q4⟩ := S.topo.2 this
      omega
    · rw [Finset.not_nonempty_iff_eq_empty] at c
      subst c
      obtain ⟨q1, q2⟩ := k6 rfl
      have t0 : ∀ v, v ∉ m0.touched ∅ := fun v h => by simp [touched] at h
      obtain ⟨q3, q4⟩ := S.topo.1 ⟨fun h => b0 ((hb0.1 h).resolve_left (t0 _)), fun h => b1 ((hb1.1 h).resolve_left (t0 _))⟩
      simp
      omega
  · obtain ⟨k1, k2, k3, k4, k5⟩ := I.fill
    rw [Finset.card_insert_of_notMem heP]
    omega

end Mesh
end GC
