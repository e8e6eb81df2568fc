import Verif.MeshInsert
import Mathlib.Logic.Equiv.Basic

/-! # switchHalfedgeSides and ensureEdgeHasInteriorHalfedge (model and helper lemmas) -/

namespace GC

/-- Renaming along an orbit by an involution, on a set closed under `f`. -/
theorem orb_conj_on {f g σ : ℕ → ℕ} (s : ℕ → Prop) (hσ : ∀ i, σ (σ i) = i) (hs : ∀ i, s i → s (f i))
    (h : ∀ i, s i → g (σ i) = σ (f i)) {i j : ℕ} (hi : s i) : Orb g (σ i) (σ j) ↔ Orb f i j := by
  have it : ∀ k i, s i → g^[k] (σ i) = σ (f^[k] i) := by
    intro k
    induction k with
    | zero => intro i _; rfl
    | succ k ih => intro i hi; rw [Function.iterate_succ_apply, h i hi, ih _ (hs i hi), Function.iterate_succ_apply]
  constructor
  · rintro ⟨k, hk⟩
    exact ⟨k, by rw [it k i hi] at hk; have := congrArg σ hk; rwa [hσ, hσ] at this⟩
  · rintro ⟨k, rfl⟩; exact ⟨k, it k i hi⟩

/-- Exchange `A` and `B`. -/
def swp (A B i : ℕ) : ℕ := if i = A then B else if i = B then A else i

@[simp] theorem swp_swp (A B i : ℕ) : swp A B (swp A B i) = i := by unfold swp; split_ifs <;> simp_all

@[simp] theorem swp_left (A B : ℕ) : swp A B A = B := by simp [swp]

@[simp] theorem swp_right (A B : ℕ) : swp A B B = A := by unfold swp; split_ifs <;> simp_all

theorem swp_ne {A B i : ℕ} (h1 : i ≠ A) (h2 : i ≠ B) : swp A B i = i := by simp [swp, h1, h2]

theorem swp_twin (A i : ℕ) : swp A (twin A) (twin i) = twin (swp A (twin A) i) := by
  unfold swp
  by_cases h1 : i = A
  · subst h1; simp [twin_ne]
  · by_cases h2 : i = twin A
    · subst h2; simp [h1]
    · have a : twin i ≠ A := fun h => h2 (by rw [← h, twin_twin])
      have b : twin i ≠ twin A := fun h => h1 (twin_inj h)
      simp [h1, h2, a, b]

theorem count_swp {p : ℕ → Prop} [DecidablePred p] {n A B : ℕ} (hA : A < n) (hB : B < n) :
    Nat.count (fun i => p (swp A B i)) n = Nat.count p n := by
  rw [Nat.count_eq_card_filter_range, Nat.count_eq_card_filter_range]
  have hlt : ∀ i, i < n → swp A B i < n := by intro i hi; unfold swp; split_ifs <;> omega
  refine Finset.card_bij (fun i _ => swp A B i) ?_ ?_ ?_
  · intro i hi
    rw [Finset.mem_filter, Finset.mem_range] at hi ⊢
    exact ⟨hlt i hi.1, hi.2⟩
  · intro i _ j _ h
    have := congrArg (swp A B) h; simpa using this
  · intro i hi
    rw [Finset.mem_filter, Finset.mem_range] at hi
    refine ⟨swp A B i, ?_, by simp⟩
    rw [Finset.mem_filter, Finset.mem_range]
    exact ⟨hlt i hi.1, by simpa using hi.2⟩

namespace Mesh

/-- All conditions of `Valid` except that the first halfedge of an edge is interior. `switchHalfedgeSides` is
meant to be usable in such a state (comment in manifold_surface_mesh.cpp:828-829). -/
structure WeakValid (m : Mesh) : Prop where
  /-- storage: two halfedge slots per edge slot (used and reserved), fill within capacity, no index is `INVALID_IND` -/
  he_fill : m.nHeFill = 2 * m.nEFill
  he_cap : m.nHeFill ≤ m.nHeCap ∧ m.nHeCap < INV
  e_cap : m.nHeCap = 2 * m.nECap
  v_cap : m.nVFill ≤ m.nVCap ∧ m.nVCap < INV
  f_cap : m.nFFill + m.nBLFill ≤ m.nFCap ∧ m.nFCap < INV
  /-- references of live halfedges are live -/
  twin_live : ∀ i, m.heLive i → m.heLive (twin i)
  next_live : ∀ i, m.heLive i → m.heLive (m.heNext i)
  vertex_live : ∀ i, m.heLive i → m.vLive (m.heVertex i)
  face_live : ∀ i, m.heLive i → m.fLive (m.heFace i)
  /-- the halfedges of a face are exactly one cycle of `next` -/
  face_iff : ∀ i j, m.heLive i → m.heLive j → (m.heFace i = m.heFace j ↔ Orb m.heNext i j)
  /-- the halfedges leaving a vertex are exactly one cycle of `twin().next()` -/
  vertex_iff : ∀ i j, m.heLive i → m.heLive j → (m.heVertex i = m.heVertex j ↔ Orb m.vNext i j)
  /-- `v.halfedge()` leaves `v`, `f.halfedge()` lies in `f` -/
  v_he : ∀ v, m.vLive v → m.heLive (m.vHalfedge v) ∧ m.heVertex (m.vHalfedge v) = v
  f_he : ∀ f, m.fLive f → m.heLive (m.fHalfedge f) ∧ m.heFace (m.fHalfedge f) = f
  /-- no face or boundary loop of degree one -/
  deg_two : ∀ i, m.heLive i → m.heNext i ≠ i
  /-- at most one boundary passes through a vertex, and `v.halfedge()` starts along it -/
  bdy_unique : ∀ i j, m.heLive i → m.heLive j → m.ext i → m.ext j →
    m.heVertex i = m.heVertex j → i = j
  bdy_first : ∀ i, m.heLive i → m.ext i → m.ext (twin (m.vHalfedge (m.heVertex i)))
  /-- the counters count -/
  cnt_he : m.nHe = Nat.count (fun i => m.heNext i ≠ INV) m.nHeFill
  cnt_int : m.nInt = Nat.count (fun i => m.heNext i ≠ INV ∧ m.heFace i < m.nFFill) m.nHeFill
  cnt_e : m.nE = Nat.count (fun e => m.heNext (eHalfedge e) ≠ INV) m.nEFill
  cnt_v : m.nV = Nat.count (fun v => m.vHalfedge v ≠ INV) m.nVFill
  cnt_f : m.nF = Nat.count (fun f => m.fHalfedge f ≠ INV) m.nFFill
  cnt_bl : m.nBL = m.nBLFill
  bl_live : ∀ f, m.nFCap - m.nBLFill ≤ f → f < m.nFCap → m.fHalfedge f ≠ INV

theorem Valid.weak {m : Mesh} (h : m.Valid) : m.WeakValid :=
  ⟨h.he_fill, h.he_cap, h.e_cap, h.v_cap, h.f_cap, h.twin_live, h.next_live, h.vertex_live, h.face_live, h.face_iff,
    h.vertex_iff, h.v_he, h.f_he, h.deg_two, h.bdy_unique, h.bdy_first, h.cnt_he, h.cnt_int, h.cnt_e, h.cnt_v,
    h.cnt_f, h.cnt_bl, h.bl_live⟩

theorem WeakValid.valid {m : Mesh} (h : m.WeakValid) (he : ∀ e, m.heLive (eHalfedge e) → ¬ m.ext (eHalfedge e)) :
    m.Valid :=
  ⟨h.he_fill, h.he_cap, h.e_cap, h.v_cap, h.f_cap, h.twin_live, h.next_live, h.vertex_live, h.face_live, h.face_iff,
    h.vertex_iff, h.v_he, h.f_he, h.deg_two, he, h.bdy_unique, h.bdy_first, h.cnt_he, h.cnt_int, h.cnt_e, h.cnt_v,
    h.cnt_f, h.cnt_bl, h.bl_live⟩

open Classical in
/-- The same halfedges with every boundary loop regarded as an interior face: a way to use the lemmas about
`Valid` for the cycles of a `WeakValid` mesh. -/
noncomputable def closeUp (m : Mesh) : Mesh :=
  { m with
    fHalfedge := fun f => if m.fLive f then m.fHalfedge f else INV
    nInt := Nat.count (fun i => m.heNext i ≠ INV ∧ m.heFace i < m.nFCap) m.nHeFill
    nF := Nat.count (fun f => (if m.fLive f then m.fHalfedge f else INV) ≠ INV) m.nFCap
    nFFill := m.nFCap
    nBL := 0
    nBLFill := 0 }

theorem fLive_lt_cap {m : Mesh} (hc : m.nFFill + m.nBLFill ≤ m.nFCap) {f : ℕ} (h : m.fLive f) : f < m.nFCap := by
  rcases h.1 with h | h <;> omega

theorem WeakValid.closeUp_valid {m : Mesh} (h : m.WeakValid) : m.closeUp.Valid := by
  classical
  have fl : ∀ f, m.closeUp.fLive f ↔ m.fLive f := by
    intro f
    have e1 : m.closeUp.fHalfedge f = if m.fLive f then m.fHalfedge f else INV := rfl
    constructor
    · intro b
      by_contra hn
      rw [if_neg hn] at e1
      exact b.2 e1
    · intro hf
      rw [if_pos hf] at e1
      refine ⟨Or.inl (fLive_lt_cap h.f_cap.1 hf), ?_⟩
      rw [e1]; exact hf.2
  have next' : ∀ i, m.heLive i → ¬ m.closeUp.ext i := by
    intro i hi
    have := fLive_lt_cap h.f_cap.1 (h.face_live i hi)
    unfold ext closeUp; simpa using this
  refine ⟨h.he_fill, h.he_cap, h.e_cap, h.v_cap, ⟨by simp [closeUp], h.f_cap.2⟩, h.twin_live, h.next_live, h.vertex_live,
    fun i hi => (fl _).2 (h.face_live i hi), h.face_iff, h.vertex_iff, h.v_he, ?_, h.deg_two,
    fun e he => next' _ he, fun i _ hi _ hx => absurd hx (next' i hi), fun i hi hx => absurd hx (next' i hi),
    h.cnt_he, rfl, h.cnt_e, h.cnt_v, ?_, rfl, fun f a b => ?_⟩
  · intro f hf
    have hf' := (fl f).1 hf
    have := h.f_he f hf'
    show m.heLive (if m.fLive f then m.fHalfedge f else INV) ∧ m.heFace (if m.fLive f then m.fHalfedge f else INV) = f
    rw [if_pos hf']; exact this
  · unfold closeUp; simp only
  · unfold closeUp at a b; simp at a b; omega

/-- `ManifoldSurfaceMesh::switchHalfedgeSides`, manifold_surface_mesh.cpp:826-870. `heN`, `heTN` are the
successors, `heP`, `heTP` the predecessors of the two halfedges. The tests in lines 861 and 864 read
`vHalfedgeArr` after the preceding writes. -/
def switchWrites (m : Mesh) (he heP heTP : ℕ) : Mesh :=
  let heT := twin he
  let fA := m.heFace he
  let fB := m.heFace heT
  let vA := m.heVertex he
  let vB := m.heVertex heT
  let vH1 := if m.faceIsBL fA ∨ m.vHalfedge vB = heT then upd m.vHalfedge vB he else m.vHalfedge
  { m with
    heNext := upd (upd (upd (upd m.heNext he (m.heNext heT)) heTP he) heT (m.heNext he)) heP heT
    heFace := upd (upd m.heFace he fB) heT fA
    heVertex := upd (upd m.heVertex he vB) heT vA
    fHalfedge := upd (upd m.fHalfedge fB he) fA heT
    vHalfedge := if m.faceIsBL fB ∨ vH1 vA = he then upd vH1 vA heT else vH1 }

def switchHalfedgeSides (m : Mesh) (e : ℕ) : Res (Mesh × ℕ) :=
  match m.prevOrbitVertex (eHalfedge e) with
  | .error x => .error x
  | .ok heP => match m.prevOrbitVertex (twin (eHalfedge e)) with
    | .error x => .error x
    | .ok heTP => .ok (m.switchWrites (eHalfedge e) heP heTP, eHalfedge e)

/-- `ManifoldSurfaceMesh::ensureEdgeHasInteriorHalfedge`, manifold_surface_mesh.cpp:872-879. -/
def ensureEdgeHasInteriorHalfedge (m : Mesh) (e : ℕ) : Res (Mesh × Bool) :=
  if ¬ m.heIsInterior (eHalfedge e) then
    match m.switchHalfedgeSides e with
    | .error x => .error x
    | .ok (m', _) => .ok (m', true)
  else .ok (m, false)

/-- `m'` is `m` with the two halfedges `A`, `twin A` renamed into each other. -/
structure Renamed (m m' : Mesh) (A : ℕ) : Prop where
  live : ∀ i, m'.heLive i ↔ m.heLive i
  next : ∀ i, m.heLive i → m'.heNext i = swp A (twin A) (m.heNext (swp A (twin A) i))
  face : ∀ i, m.heLive i → m'.heFace i = m.heFace (swp A (twin A) i)
  vert : ∀ i, m.heLive i → m'.heVertex i = m.heVertex (swp A (twin A) i)
  vlive : ∀ v, m'.vLive v ↔ m.vLive v
  flive : ∀ f, m'.fLive f ↔ m.fLive f
  v_he : ∀ v, m.vLive v → m.heLive (m'.vHalfedge v) ∧ m.heVertex (swp A (twin A) (m'.vHalfedge v)) = v
  f_he : ∀ f, m.fLive f → m.heLive (m'.fHalfedge f) ∧ m.heFace (swp A (twin A) (m'.fHalfedge f)) = f
  bdy : ∀ i, m.heLive i → m.ext i → m.ext (swp A (twin A) (twin (m'.vHalfedge (m.heVertex i))))
  counts : m'.nHe = m.nHe ∧ m'.nHeFill = m.nHeFill ∧ m'.nHeCap = m.nHeCap ∧ m'.nInt = m.nInt ∧ m'.nV = m.nV ∧
    m'.nVFill = m.nVFill ∧ m'.nVCap = m.nVCap ∧ m'.nE = m.nE ∧ m'.nEFill = m.nEFill ∧ m'.nECap = m.nECap ∧
    m'.nF = m.nF ∧ m'.nFFill = m.nFFill ∧ m'.nFCap = m.nFCap ∧ m'.nBL = m.nBL ∧ m'.nBLFill = m.nBLFill

theorem Renamed.weak {m m' : Mesh} {A : ℕ} (hv : m.WeakValid) (lA : m.heLive A) (R : Renamed m m' A) :
    m'.WeakValid ∧ ∀ i, m.heLive i → (m'.ext i ↔ m.ext (swp A (twin A) i)) := by
  obtain ⟨k1, k2, k3, k4, k5, k6, k7, k8, k9, k10, k11, k12, k13, k14, k15⟩ := R.counts
  have lB := hv.twin_live A lA
  generalize hσ : swp A (twin A) = σ at *
  have ss : ∀ i, σ (σ i) = i := by intro i; rw [← hσ]; simp
  have st : ∀ i, σ (twin i) = twin (σ i) := by intro i; rw [← hσ]; exact swp_twin A i
  have sl : ∀ i, m.heLive i → m.heLive (σ i) := by
    intro i hi; rw [← hσ]; unfold swp; split_ifs
    · exact lB
    · exact lA
    · exact hi
  have next' : ∀ i, m.heLive i → m'.heNext (σ i) = σ (m.heNext i) := by
    intro i hi
    have := R.next (σ i) (sl i hi); rw [hσ, ss] at this; exact this
  have face' : ∀ i, m.heLive i → m'.heFace i = m.heFace (σ i) := by rw [← hσ]; exact R.face
  have vert' : ∀ i, m.heLive i → m'.heVertex i = m.heVertex (σ i) := by rw [← hσ]; exact R.vert
  have hex : ∀ i, m.heLive i → (m'.ext i ↔ m.ext (σ i)) := by
    intro i hi; unfold ext; rw [face' i hi, k12]
  have nxt : ∀ i, m.heLive i → m'.heNext i = σ (m.heNext (σ i)) := by
    intro i hi; have := next' (σ i) (sl i hi); rwa [ss] at this
  refine ⟨⟨by rw [k2, k9, hv.he_fill], by rw [k2, k3]; exact hv.he_cap, by rw [k3, k10]; exact hv.e_cap,
    by rw [k6, k7]; exact hv.v_cap, by rw [k12, k13, k15]; exact hv.f_cap, ?_, ?_, ?_, ?_, ?_, ?_, ?_, ?_, ?_, ?_, ?_,
    ?_, ?_, ?_, ?_, ?_, by rw [k14, k15]; exact hv.cnt_bl, ?_⟩, hex⟩
  · intro i hi; rw [R.live] at *; exact hv.twin_live i hi
  · intro i hi; rw [R.live] at *; rw [nxt i hi]; exact sl _ (hv.next_live _ (sl i hi))
  · intro i hi; rw [R.live] at hi; rw [R.vlive, vert' i hi]; exact hv.vertex_live _ (sl i hi)
  · intro i hi; rw [R.live] at hi; rw [R.flive, face' i hi]; exact hv.face_live _ (sl i hi)
  · intro i j hi hj
    rw [R.live] at hi hj
    rw [face' i hi, face' j hj, hv.face_iff _ _ (sl i hi) (sl j hj),
      ← orb_conj_on m.heLive ss hv.next_live next' (sl i hi), ss, ss]
  · intro i j hi hj
    rw [R.live] at hi hj
    rw [vert' i hi, vert' j hj, hv.vertex_iff _ _ (sl i hi) (sl j hj),
      ← orb_conj_on (f := m.vNext) (g := m'.vNext) m.heLive ss (fun i hi => hv.next_live _ (hv.twin_live _ hi)) ?_ (sl i hi), ss, ss]
    intro i hi
    unfold vNext; rw [← st, next' _ (hv.twin_live i hi)]
  · intro v hvl
    rw [R.vlive] at hvl
    obtain ⟨a, b⟩ := R.v_he v hvl
    rw [R.live, vert' _ a]
    exact ⟨a, by rw [← hσ]; exact b⟩
  · intro f hfl
    rw [R.flive] at hfl
    obtain ⟨a, b⟩ := R.f_he f hfl
    rw [R.live, face' _ a]
    exact ⟨a, by rw [← hσ]; exact b⟩
  · intro i hi; rw [R.live] at hi; rw [nxt i hi]
    intro h; have := congrArg σ h; rw [ss] at this; exact hv.deg_two _ (sl i hi) this
  · intro i j hi hj ei ej h
    rw [R.live] at hi hj
    rw [hex i hi] at ei; rw [hex j hj] at ej; rw [vert' i hi, vert' j hj] at h
    have := congrArg σ (hv.bdy_unique _ _ (sl i hi) (sl j hj) ei ej h)
    rwa [ss, ss] at this
  · intro i hi ei
    rw [R.live] at hi
    rw [hex i hi] at ei
    rw [vert' i hi, hex _ (hv.twin_live _ (R.v_he _ (hv.vertex_live _ (sl i hi))).1)]
    have := R.bdy _ (sl i hi) ei
    rwa [hσ] at this
  · rw [k1, k2, hv.cnt_he]
    apply count_congr
    intro i hi
    have := R.live i; unfold heLive at this; rw [k2] at this
    simp only [hi, true_and] at this; exact this.symm
  · rw [k4, k2, hv.cnt_int, k12]
    rw [← count_swp (A := A) (B := twin A) lA.1 lB.1]
    apply count_congr
    intro i hi
    rw [hσ]
    have l1 := R.live i; unfold heLive at l1; rw [k2] at l1
    simp only [hi, true_and] at l1
    by_cases h : m.heNext i ≠ INV
    · have hi' : m.heLive i := ⟨hi, h⟩
      rw [face' i hi']
      simp [l1.2 h, (sl i hi').2]
    · have : ¬ m.heNext (σ i) ≠ INV := by
        intro h2
        apply h
        by_cases c : i = A ∨ i = twin A
        · rcases c with rfl | rfl
          · exact lA.2
          · exact lB.2
        · rw [not_or] at c
          rw [← hσ, swp_ne c.1 c.2] at h2; exact h2
      have h' : ¬ m'.heNext i ≠ INV := fun x => h (l1.1 x)
      simp only [this, h', false_and]
  · rw [k8, k9, hv.cnt_e]
    apply count_congr
    intro e he
    have := R.live (eHalfedge e); unfold heLive at this; rw [k2] at this
    have h2 : eHalfedge e < m.nHeFill := by unfold eHalfedge; have := hv.he_fill; omega
    simp only [h2, true_and] at this; exact this.symm
  · rw [k5, k6, hv.cnt_v]
    apply count_congr
    intro v hvl
    have := R.vlive v; unfold vLive at this; rw [k6] at this
    simp only [hvl, true_and] at this; exact this.symm
  · rw [k11, k12, hv.cnt_f]
    apply count_congr
    intro f hfl
    have := R.flive f; unfold fLive at this; rw [k12, k13, k15] at this
    simp only [hfl, true_or, true_and] at this; exact this.symm
  · rw [k13, k15]
    intro f a b
    have := R.flive f; unfold fLive at this; rw [k12, k13, k15] at this
    simp only [a, b, and_self, or_true, true_and] at this
    exact this.2 (hv.bl_live f a b)

private theorem vh_writes (vH : ℕ → ℕ) (vA vB A T : ℕ) (p q : Prop) [Decidable p] [Decidable q] (hAT : A ≠ T)
    (vH1 r : ℕ → ℕ) (h1 : vH1 = if p ∨ vH vB = T then upd vH vB A else vH)
    (hr : r = if q ∨ vH1 vA = A then upd vH1 vA T else vH1) :
    (∀ v, v ≠ vA → v ≠ vB → r v = vH v) ∧
    (vA ≠ vB → r vB = if p ∨ vH vB = T then A else vH vB) ∧
    (vA ≠ vB → r vA = if q ∨ vH vA = A then T else vH vA) ∧
    (vA = vB → r vA = if p ∨ q ∨ vH vA = A ∨ vH vA = T then T else vH vA) := by
  subst hr h1
  refine ⟨?_, ?_, ?_, ?_⟩
  · intro v a b; split_ifs <;> simp [upd, a, b]
  · intro h
    have h' := h.symm
    by_cases c : p ∨ vH vB = T
    · simp only [if_pos c]; split_ifs <;> simp [upd, h']
    · simp only [if_neg c]; split_ifs <;> simp [upd, h']
  · intro h
    by_cases c : p ∨ vH vB = T
    · simp only [if_pos c]; rw [upd_ne _ _ h]; split_ifs <;> simp [upd, h]
    · simp only [if_neg c]; split_ifs <;> simp [upd]
  · rintro rfl
    by_cases c : p ∨ vH vA = T
    · simp only [if_pos c]
      have : (p ∨ q ∨ vH vA = A ∨ vH vA = T) := by tauto
      rw [if_pos this]; simp [upd]
    · simp only [if_neg c]
      by_cases c2 : q ∨ vH vA = A
      · rw [if_pos c2, if_pos (by tauto)]; simp [upd]
      · rw [if_neg c2, if_neg (by tauto)]

/-- What `switchHalfedgeSides` writes. -/
structure SwSpec (m m' : Mesh) (A : ℕ) : Prop where
  next : ∀ i, m.heLive i → m'.heNext i = swp A (twin A) (m.heNext (swp A (twin A) i))
  face : ∀ i, m'.heFace i = m.heFace (swp A (twin A) i)
  vert : ∀ i, m'.heVertex i = m.heVertex (swp A (twin A) i)
  next_d : ∀ i, ¬ m.heLive i → m'.heNext i = m.heNext i
  fh : ∀ f, m'.fHalfedge f = if f = m.heFace A then twin A else if f = m.heFace (twin A) then A else m.fHalfedge f
  vh_o : ∀ v, v ≠ m.heVertex A → v ≠ m.heVertex (twin A) → m'.vHalfedge v = m.vHalfedge v
  vh_B : m.heVertex A ≠ m.heVertex (twin A) → m'.vHalfedge (m.heVertex (twin A)) =
    if m.faceIsBL (m.heFace A) ∨ m.vHalfedge (m.heVertex (twin A)) = twin A then A else m.vHalfedge (m.heVertex (twin A))
  vh_A : m.heVertex A ≠ m.heVertex (twin A) → m'.vHalfedge (m.heVertex A) =
    if m.faceIsBL (m.heFace (twin A)) ∨ m.vHalfedge (m.heVertex A) = A then twin A else m.vHalfedge (m.heVertex A)
  vh_s : m.heVertex A = m.heVertex (twin A) → m'.vHalfedge (m.heVertex A) =
    if m.faceIsBL (m.heFace A) ∨ m.faceIsBL (m.heFace (twin A)) ∨ m.vHalfedge (m.heVertex A) = A ∨ m.vHalfedge (m.heVertex A) = twin A then twin A
    else m.vHalfedge (m.heVertex A)
  counts : m'.nHe = m.nHe ∧ m'.nHeFill = m.nHeFill ∧ m'.nHeCap = m.nHeCap ∧ m'.nInt = m.nInt ∧ m'.nV = m.nV ∧
    m'.nVFill = m.nVFill ∧ m'.nVCap = m.nVCap ∧ m'.nE = m.nE ∧ m'.nEFill = m.nEFill ∧ m'.nECap = m.nECap ∧
    m'.nF = m.nF ∧ m'.nFFill = m.nFFill ∧ m'.nFCap = m.nFCap ∧ m'.nBL = m.nBL ∧ m'.nBLFill = m.nBLFill

theorem switch_spec {m : Mesh} (hv : m.WeakValid) {e : ℕ} (he : m.heLive (eHalfedge e))
    (d1 : m.heNext (eHalfedge e) ≠ twin (eHalfedge e)) (d2 : m.heNext (twin (eHalfedge e)) ≠ eHalfedge e) :
    ∃ m', m.switchHalfedgeSides e = .ok (m', eHalfedge e) ∧ SwSpec m m' (eHalfedge e) := by
  have hc := hv.closeUp_valid
  obtain ⟨P, hP, lP, nP⟩ := hc.prevOrbitVertex_ok (i := eHalfedge e) he
  obtain ⟨Q, hQ, lQ, nQ⟩ := hc.prevOrbitVertex_ok (i := twin (eHalfedge e)) (hv.twin_live _ he)
  have inj : ∀ i j, m.heLive i → m.heLive j → m.heNext i = m.heNext j → i = j := fun i j hi hj h => hc.next_inj hi hj h
  change m.prevOrbitVertex _ = _ at hP hQ
  change m.heLive _ at lP lQ
  change m.heNext _ = _ at nP nQ
  unfold switchHalfedgeSides
  rw [hP, hQ]
  simp only
  generalize eHalfedge e = A at *
  have lB := hv.twin_live A he
  have hAB : A ≠ twin A := (twin_ne A).symm
  have PA : P ≠ A := fun h => hv.deg_two P lP (by rw [nP, h])
  have PB : P ≠ twin A := fun h => d2 (by rw [← h, nP])
  have QB : Q ≠ twin A := fun h => hv.deg_two Q lQ (by rw [nQ, h])
  have QA : Q ≠ A := fun h => d1 (by rw [← h, nQ, h])
  have PQ : P ≠ Q := fun h => hAB (by rw [← nQ, ← h, nP])
  have dA : m.heNext A ≠ A := hv.deg_two A he
  have dB : m.heNext (twin A) ≠ twin A := hv.deg_two _ lB
  refine ⟨_, rfl, ?_, ?_, ?_, ?_, ?_, ?_, ?_, ?_, ?_,
    ⟨rfl, rfl, rfl, rfl, rfl, rfl, rfl, rfl, rfl, rfl, rfl, rfl, rfl, rfl, rfl⟩⟩
  · intro i hi
    show upd (upd (upd (upd m.heNext A (m.heNext (twin A))) Q A) (twin A) (m.heNext A)) P (twin A) i = _
    by_cases c1 : i = P
    · subst c1; rw [swp_ne PA PB, nP, swp_left]; simp [upd]
    by_cases c2 : i = twin A
    · subst c2; rw [swp_right, swp_ne dA d1]; simp [upd, PB.symm]
    by_cases c3 : i = Q
    · subst c3; rw [swp_ne QA QB, nQ, swp_right]; simp [upd, PQ.symm, QB]
    by_cases c4 : i = A
    · subst c4; rw [swp_left, swp_ne d2 dB]; simp [upd, PA.symm, QA.symm, hAB]
    rw [swp_ne c4 c2, swp_ne (fun h => c1 (inj i P hi lP (by rw [h, nP]))) (fun h => c3 (inj i Q hi lQ (by rw [h, nQ])))]
    simp [upd, c1, c2, c3, c4]
  · intro i
    show upd (upd m.heFace A (m.heFace (twin A))) (twin A) (m.heFace A) i = _
    by_cases c2 : i = twin A
    · subst c2; simp [upd]
    by_cases c4 : i = A
    · subst c4; simp [upd, hAB]
    rw [swp_ne c4 c2]; simp [upd, c2, c4]
  · intro i
    show upd (upd m.heVertex A (m.heVertex (twin A))) (twin A) (m.heVertex A) i = _
    by_cases c2 : i = twin A
    · subst c2; simp [upd]
    by_cases c4 : i = A
    · subst c4; simp [upd, hAB]
    rw [swp_ne c4 c2]; simp [upd, c2, c4]
  · intro i hi
    show upd (upd (upd (upd m.heNext A (m.heNext (twin A))) Q A) (twin A) (m.heNext A)) P (twin A) i = _
    have c1 : i ≠ P := fun h => hi (h ▸ lP)
    have c2 : i ≠ twin A := fun h => hi (h ▸ lB)
    have c3 : i ≠ Q := fun h => hi (h ▸ lQ)
    have c4 : i ≠ A := fun h => hi (h ▸ he)
    simp [upd, c1, c2, c3, c4]
  · intro f; rfl
  · exact (vh_writes m.vHalfedge (m.heVertex A) (m.heVertex (twin A)) A (twin A) (m.faceIsBL (m.heFace A))
      (m.faceIsBL (m.heFace (twin A))) hAB _ _ rfl rfl).1
  · exact (vh_writes m.vHalfedge (m.heVertex A) (m.heVertex (twin A)) A (twin A) (m.faceIsBL (m.heFace A))
      (m.faceIsBL (m.heFace (twin A))) hAB _ _ rfl rfl).2.1
  · exact (vh_writes m.vHalfedge (m.heVertex A) (m.heVertex (twin A)) A (twin A) (m.faceIsBL (m.heFace A))
      (m.faceIsBL (m.heFace (twin A))) hAB _ _ rfl rfl).2.2.1
  · exact (vh_writes m.vHalfedge (m.heVertex A) (m.heVertex (twin A)) A (twin A) (m.faceIsBL (m.heFace A))
      (m.faceIsBL (m.heFace (twin A))) hAB _ _ rfl rfl).2.2.2

namespace WeakValid
variable {m : Mesh}

theorem vertex_next (hv : m.WeakValid) {i : ℕ} (hi : m.heLive i) :
    m.heVertex (m.heNext i) = m.heVertex (twin i) := hv.closeUp_valid.vertex_next hi

theorem ext_next (hv : m.WeakValid) {i : ℕ} (hi : m.heLive i) : m.ext (m.heNext i) ↔ m.ext i := by
  have : m.heFace (m.heNext i) = m.heFace i := hv.closeUp_valid.face_next hi
  unfold ext; rw [this]

/-- A halfedge from a vertex to itself is never on a boundary loop. -/
theorem ext_not_self (hv : m.WeakValid) {i : ℕ} (hi : m.heLive i) (he : m.ext i) :
    m.heVertex i ≠ m.heVertex (twin i) := by
  intro h
  exact hv.deg_two i hi (hv.bdy_unique _ _ (hv.next_live i hi) hi ((hv.ext_next hi).2 he) he
    (by rw [hv.vertex_next hi, h]))

/-- The halfedge stored at a boundary vertex is the twin of the exterior halfedge that ends there. -/
theorem vhe_of_ext (hv : m.WeakValid) {i : ℕ} (hi : m.heLive i) (he : m.ext i) :
    m.vHalfedge (m.heVertex (twin i)) = twin i := by
  have l1 := hv.next_live i hi
  have e1 := (hv.ext_next hi).2 he
  have h := hv.bdy_first _ l1 e1
  rw [hv.vertex_next hi] at h
  obtain ⟨a, b⟩ := hv.v_he _ (hv.vertex_live _ (hv.twin_live _ hi))
  have lt := hv.twin_live _ a
  have := hv.bdy_unique _ _ (hv.next_live _ lt) l1 ((hv.ext_next lt).2 h) e1
    (by rw [hv.vertex_next lt, twin_twin, b, hv.vertex_next hi])
  have := hv.closeUp_valid.next_inj lt hi this
  have := congrArg twin this
  rwa [twin_twin] at this

end WeakValid

/-- The renaming of the two halfedges. -/
theorem SwSpec.renamed {m m' : Mesh} {A : ℕ} (hv : m.WeakValid) (lA : m.heLive A) (S : SwSpec m m' A) :
    Renamed m m' A := by
  have hs : m.heVertex A ≠ m.heVertex (twin A) ∨ ¬ m.ext A := by
    by_cases h : m.ext A
    · exact Or.inl (hv.ext_not_self lA h)
    · exact Or.inr h
  obtain ⟨k1, k2, k3, k4, k5, k6, k7, k8, k9, k10, k11, k12, k13, k14, k15⟩ := S.counts
  have lB := hv.twin_live A lA
  have hAB : A ≠ twin A := (twin_ne A).symm
  have hI : m.nHeFill < INV := lt_of_le_of_lt hv.he_cap.1 hv.he_cap.2
  have live_ne : ∀ i, m.heLive i → i ≠ INV := fun i hi => by have := hi.1; omega
  have sl : ∀ i, m.heLive i → m.heLive (swp A (twin A) i) := by
    intro i hi; unfold swp; split_ifs
    · exact lB
    · exact lA
    · exact hi
  -- where the vertex references point
  have key : ∀ v, m.vLive v → m.heLive (m'.vHalfedge v) ∧ m.heVertex (swp A (twin A) (m'.vHalfedge v)) = v ∧
      ((∃ i, m.heLive i ∧ m.ext i ∧ m.heVertex i = v) → m.ext (swp A (twin A) (twin (m'.vHalfedge v)))) := by
    intro v vl
    obtain ⟨a, b⟩ := hv.v_he v vl
    have hb : (∃ i, m.heLive i ∧ m.ext i ∧ m.heVertex i = v) → m.ext (twin (m.vHalfedge v)) := by
      rintro ⟨i, h1, h2, h3⟩; rw [← h3]; exact hv.bdy_first i h1 h2
    have old : ∀ v, m.vLive v → m'.vHalfedge v = m.vHalfedge v → m.vHalfedge v ≠ A → m.vHalfedge v ≠ twin A →
        m.heLive (m'.vHalfedge v) ∧ m.heVertex (swp A (twin A) (m'.vHalfedge v)) = v ∧
        (m.ext (twin (m.vHalfedge v)) → m.ext (swp A (twin A) (twin (m'.vHalfedge v)))) := by
      intro v vl h n1 n2
      obtain ⟨a, b⟩ := hv.v_he v vl
      rw [h, swp_twin, swp_ne n1 n2]
      exact ⟨a, b, id⟩
    by_cases c1 : v = m.heVertex A
    · by_cases c2 : m.heVertex A = m.heVertex (twin A)
      · have nA : ¬ m.ext A := hs.resolve_left (not_not.2 c2)
        have h := S.vh_s c2
        rw [← c1] at h
        by_cases c3 : m.faceIsBL (m.heFace A) ∨ m.faceIsBL (m.heFace (twin A)) ∨ m.vHalfedge v = A ∨ m.vHalfedge v = twin A
        · rw [if_pos c3] at h
          rw [h, twin_twin, swp_left, swp_right]
          refine ⟨lB, c1.symm, fun hh => ?_⟩
          have hx := hb hh
          rcases c3 with c3 | c3 | c3 | c3
          · exact absurd c3 nA
          · exact c3
          · rwa [c3] at hx
          · rw [c3, twin_twin] at hx; exact absurd hx nA
        · rw [if_neg c3] at h
          rw [not_or, not_or, not_or] at c3
          obtain ⟨x, y, z⟩ := old v vl h c3.2.2.1 c3.2.2.2
          exact ⟨x, y, fun hh => z (hb hh)⟩
      · have h := S.vh_A c2
        rw [← c1] at h
        by_cases c3 : m.faceIsBL (m.heFace (twin A)) ∨ m.vHalfedge v = A
        · rw [if_pos c3] at h
          rw [h, twin_twin, swp_left, swp_right]
          refine ⟨lB, c1.symm, fun hh => ?_⟩
          have hx := hb hh
          rcases c3 with c3 | c3
          · exact c3
          · rwa [c3] at hx
        · rw [if_neg c3] at h
          rw [not_or] at c3
          obtain ⟨x, y, z⟩ := old v vl h c3.2 (fun h' => c2 (by rw [← c1, ← b, h']))
          exact ⟨x, y, fun hh => z (hb hh)⟩
    · by_cases c2 : v = m.heVertex (twin A)
      · have hne : m.heVertex A ≠ m.heVertex (twin A) := fun h => c1 (by rw [c2, h])
        have h := S.vh_B hne
        rw [← c2] at h
        by_cases c3 : m.faceIsBL (m.heFace A) ∨ m.vHalfedge v = twin A
        · rw [if_pos c3] at h
          rw [h, swp_left, swp_right]
          refine ⟨lA, c2.symm, fun hh => ?_⟩
          have hx := hb hh
          rcases c3 with c3 | c3
          · exact c3
          · rwa [c3, twin_twin] at hx
        · rw [if_neg c3] at h
          rw [not_or] at c3
          obtain ⟨x, y, z⟩ := old v vl h (fun h' => c1 (by rw [← b, h'])) c3.2
          exact ⟨x, y, fun hh => z (hb hh)⟩
      · obtain ⟨x, y, z⟩ := old v vl (S.vh_o v c1 c2) (fun h' => c1 (by rw [← b, h'])) (fun h' => c2 (by rw [← b, h']))
        exact ⟨x, y, fun hh => z (hb hh)⟩
  have fkey : ∀ f, m.fLive f → m.heLive (m'.fHalfedge f) ∧ m.heFace (swp A (twin A) (m'.fHalfedge f)) = f := by
    intro f hf
    rw [S.fh]
    by_cases c1 : f = m.heFace A
    · rw [if_pos c1, swp_right]; exact ⟨lB, c1.symm⟩
    rw [if_neg c1]
    by_cases c2 : f = m.heFace (twin A)
    · rw [if_pos c2, swp_left]; exact ⟨lA, c2.symm⟩
    rw [if_neg c2]
    obtain ⟨a, b⟩ := hv.f_he f hf
    rw [swp_ne (fun h' => c1 (by rw [← b, h'])) (fun h' => c2 (by rw [← b, h']))]
    exact ⟨a, b⟩
  refine ⟨?_, S.next, fun i _ => S.face i, fun i _ => S.vert i, ?_, ?_, fun v hl => ⟨(key v hl).1, (key v hl).2.1⟩, fkey,
    fun i hi he => (key _ (hv.vertex_live i hi)).2.2 ⟨i, hi, he, rfl⟩, S.counts⟩
  · intro i
    by_cases hi : m.heLive i
    · refine iff_of_true ⟨by rw [k2]; exact hi.1, ?_⟩ hi
      rw [S.next i hi]
      exact live_ne _ (sl _ (hv.next_live _ (sl i hi)))
    · unfold heLive at *; rw [S.next_d i hi, k2]
  · intro v
    by_cases hl : m.vLive v
    · exact iff_of_true ⟨by rw [k6]; exact hl.1, live_ne _ (key v hl).1⟩ hl
    · unfold vLive at *
      rw [k6, S.vh_o v]
      · rintro rfl; exact hl (hv.vertex_live A lA)
      · rintro rfl; exact hl (hv.vertex_live _ lB)
  · intro f
    by_cases hl : m.fLive f
    · refine iff_of_true ⟨by rw [k12, k13, k15]; exact hl.1, live_ne _ (fkey f hl).1⟩ hl
    · unfold fLive at *
      rw [k12, k13, k15, S.fh f, if_neg, if_neg]
      · rintro rfl; exact hl (hv.face_live _ lB)
      · rintro rfl; exact hl (hv.face_live A lA)

/-- The reference of a vertex is renamed too, unless the edge is from a vertex to itself. -/
theorem SwSpec.vh {m m' : Mesh} {A : ℕ} (hv : m.WeakValid) (lA : m.heLive A) (S : SwSpec m m' A)
    (hs : m.heVertex A ≠ m.heVertex (twin A)) (v : ℕ) (vl : m.vLive v) :
    m'.vHalfedge v = swp A (twin A) (m.vHalfedge v) := by
  have lB := hv.twin_live A lA
  obtain ⟨a, b⟩ := hv.v_he v vl
  by_cases c1 : v = m.heVertex A
  · have h := S.vh_A hs
    rw [← c1] at h
    rw [h]
    by_cases c : m.faceIsBL (m.heFace (twin A)) ∨ m.vHalfedge v = A
    · rw [if_pos c]
      have : m.vHalfedge v = A := by
        rcases c with c | c
        · have := hv.vhe_of_ext lB c; rw [twin_twin, ← c1] at this; exact this
        · exact c
      rw [this, swp_left]
    · rw [if_neg c]
      rw [not_or] at c
      rw [swp_ne c.2 (fun h' => hs (by rw [← c1, ← b, h']))]
  by_cases c2 : v = m.heVertex (twin A)
  · have h := S.vh_B hs
    rw [← c2] at h
    rw [h]
    by_cases c : m.faceIsBL (m.heFace A) ∨ m.vHalfedge v = twin A
    · rw [if_pos c]
      have : m.vHalfedge v = twin A := by
        rcases c with c | c
        · have := hv.vhe_of_ext lA c; rw [← c2] at this; exact this
        · exact c
      rw [this, swp_right]
    · rw [if_neg c]
      rw [not_or] at c
      rw [swp_ne (fun h' => c1 (by rw [← b, h'])) c.2]
  · rw [S.vh_o v c1 c2, swp_ne (fun h' => c1 (by rw [← b, h'])) (fun h' => c2 (by rw [← b, h']))]

theorem swp_eq_swap (A B i : ℕ) : swp A B i = Equiv.swap A B i := by
  unfold swp; rw [Equiv.swap_apply_def]

end Mesh
end GC
