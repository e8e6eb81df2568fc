import Verif.MeshCheck

/-! # insertVertexAlongEdge (model and helper lemmas) -/

set_option linter.unusedSimpArgs false

namespace GC

/-- Conjugating by an involution renames the orbits. -/
theorem orb_conj {f g σ : ℕ → ℕ} (hσ : ∀ i, σ (σ i) = i) (h : ∀ i, g i = σ (f (σ i))) {i j : ℕ} :
    Orb g i j ↔ Orb f (σ i) (σ j) := by
  have it : ∀ k i, g^[k] i = σ (f^[k] (σ i)) := by
    intro k
    induction k with
    | zero => intro i; simp [hσ]
    | succ k ih => intro i; rw [Function.iterate_succ_apply', ih, Function.iterate_succ_apply', h, hσ]
  constructor
  · rintro ⟨k, rfl⟩; exact ⟨k, by rw [it, hσ]⟩
  · rintro ⟨k, hk⟩; exact ⟨k, by rw [it, hk, hσ]⟩

namespace Mesh

theorem Valid.prevOrbitFace_fuel {m : Mesh} (hv : m.Valid) {i N : ℕ} (hi : m.heLive i)
    (hN : m.nHeFill ≤ N) :
    ∃ p, walkPrev m.heNext m.heNext i N i = .ok p ∧ m.heLive p ∧ m.heNext p = i := by
  have hb : ∀ z, Orb m.heNext (m.heNext i) z → z < m.nHeFill := fun z hz =>
    (hv.live_of_orb_next (hv.next_live i hi) hz).1
  obtain ⟨k, hk, hhit, hmin⟩ := first_hit (hv.back_next hi) hb
  refine ⟨m.heNext^[k] i, walkPrev_ok (by omega) ?_ ?_, ?_, ?_⟩
  · rw [← Function.iterate_succ_apply' m.heNext, Function.iterate_succ_apply]; exact hhit
  · intro j hj
    rw [← Function.iterate_succ_apply' m.heNext, Function.iterate_succ_apply]; exact hmin j hj
  · exact hv.live_of_orb_next hi ⟨k, rfl⟩
  · rw [← Function.iterate_succ_apply' m.heNext, Function.iterate_succ_apply]; exact hhit

/-- The pointer updates of `insertVertexAlongEdge`, manifold_surface_mesh.cpp:571-591, given the new
vertex, the new halfedge pair `n0`, `twin n0`, the edge's first halfedge and its predecessor. -/
def insertVertexWrites (m : Mesh) (newV n0 A pA : ℕ) : Mesh :=
  let n1 := twin n0
  let B := twin A
  let nB := m.heNext B
  let fA := m.heFace A
  let fB := m.heFace B
  let vb := m.heVertex A
  let vH1 := upd m.vHalfedge newV A
  { m with
    vHalfedge := if vH1 vb = A then upd vH1 vb n0 else vH1,
    heNext := upd (upd (upd (upd m.heNext n0 A) n1 nB) B n1) pA n0,
    heVertex := upd (upd (upd m.heVertex n0 vb) n1 newV) A newV,
    heFace := upd (upd m.heFace n0 fA) n1 fB }

/-- `ManifoldSurfaceMesh::insertVertexAlongEdge`, manifold_surface_mesh.cpp:544-595. Returns the new
mesh and the halfedge `heACenter`. -/
def insertVertexAlongEdge (m : Mesh) (e : ℕ) : Res (Mesh × ℕ) :=
  match m.getNewVertex with
  | .error x => .error x
  | .ok (m1, newV) =>
    match m1.getNewEdgeTriple (decide (m.eIsBoundary e)) with
    | .error x => .error x
    | .ok (m2, n0) =>
      match m2.prevOrbitFace (eHalfedge e) with
      | .error x => .error x
      | .ok pA => .ok (m2.insertVertexWrites newV n0 (eHalfedge e) pA, eHalfedge e)

/-- Pointwise effect of `insertVertexAlongEdge`. -/
structure IvaeSpec (m m' : Mesh) (A B pA n0 n1 nv : ℕ) : Prop where
  lA : m.heLive A
  hB : B = twin A
  lp : m.heLive pA
  np : m.heNext pA = A
  hn0 : n0 = m.nHeFill
  hn1 : n1 = m.nHeFill + 1
  hnv : nv = m.nVFill
  nBA : m.heNext B ≠ A
  iA : ¬ m.ext A
  -- arrays
  next_n0 : m'.heNext n0 = A
  next_n1 : m'.heNext n1 = m.heNext B
  next_B : m'.heNext B = n1
  next_p : m'.heNext pA = n0
  next_o : ∀ i, i ≠ n0 → i ≠ n1 → i ≠ B → i ≠ pA → m'.heNext i = m.heNext i
  v_n0 : m'.heVertex n0 = m.heVertex A
  v_n1 : m'.heVertex n1 = nv
  v_A : m'.heVertex A = nv
  v_o : ∀ i, i ≠ n0 → i ≠ n1 → i ≠ A → m'.heVertex i = m.heVertex i
  f_n0 : m'.heFace n0 = m.heFace A
  f_n1 : m'.heFace n1 = m.heFace B
  f_o : ∀ i, i ≠ n0 → i ≠ n1 → m'.heFace i = m.heFace i
  vh : ∀ v, m'.vHalfedge v = if v = nv then A else if v = m.heVertex A ∧ m.vHalfedge v = A then n0
    else m.vHalfedge v
  fh : m'.fHalfedge = m.fHalfedge
  -- counters
  c_heFill : m'.nHeFill = m.nHeFill + 2
  c_heCap : m.nHeFill + 2 ≤ m'.nHeCap ∧ m'.nHeCap < INV
  c_eFill : m'.nEFill = m.nEFill + 1
  c_eCap : m'.nHeCap = 2 * m'.nECap
  c_vFill : m'.nVFill = m.nVFill + 1
  c_vCap : m.nVFill + 1 ≤ m'.nVCap ∧ m'.nVCap < INV
  c_fFill : m'.nFFill = m.nFFill
  c_fCap : m'.nFCap = m.nFCap
  c_blFill : m'.nBLFill = m.nBLFill
  c_he : m'.nHe = m.nHe + 2
  c_int : m'.nInt = m.nInt + (if m.ext B then 1 else 2)
  c_e : m'.nE = m.nE + 1
  c_v : m'.nV = m.nV + 1
  c_f : m'.nF = m.nF
  c_bl : m'.nBL = m.nBL

theorem nearLimit.mono {m m' : Mesh} {j k : ℕ} (h : m.nearLimit j) (h1 : m.nVFill + j ≤ m'.nVFill + k)
    (h2 : m.nHeFill + 2 * j ≤ m'.nHeFill + 2 * k) (h3 : m.nFFill + m.nBL + j ≤ m'.nFFill + m'.nBL + k) : m'.nearLimit k := by
  unfold nearLimit at *; omega

theorem getNewVertex_ok {m : Mesh} (hpos : 0 < m.nVCap) (hle : m.nVFill ≤ m.nVCap) (hlt : m.nVCap < INV) :
    (m.getNewVertex = .error .oom ∧ m.nearLimit 0) ∨
    ∃ cap, m.getNewVertex = .ok ({ m with nVCap := cap, nVFill := m.nVFill + 1, nV := m.nV + 1 }, m.nVFill) ∧
      m.nVFill + 1 ≤ cap ∧ cap < INV := by
  unfold getNewVertex
  simp only
  split_ifs with h1 h2 h3
  all_goals first
    | omega
    | exact Or.inl ⟨rfl, by unfold nearLimit; omega⟩
    | exact Or.inr ⟨_, rfl, by omega, by omega⟩

/-- With the halfedge and edge capacities in sync the only possible failure is lack of memory. -/
theorem getNewEdgeTriple_ok {m : Mesh} (hv1 : m.nHeFill = 2 * m.nEFill) (hv2 : m.nHeFill ≤ m.nHeCap)
    (hv3 : m.nHeCap = 2 * m.nECap) (hlt : m.nHeCap < INV) (b : Bool) :
    (m.getNewEdgeTriple b = .error .oom ∧ m.nearLimit 0) ∨
    ∃ hcap ecap, m.getNewEdgeTriple b = .ok ({ m with
        nHeCap := hcap, nECap := ecap, nHeFill := m.nHeFill + 2, nHe := m.nHe + 2,
        nInt := if b then m.nInt + 1 else m.nInt + 2, nEFill := m.nEFill + 1, nE := m.nE + 1 }, m.nHeFill) ∧
      m.nHeFill + 2 ≤ hcap ∧ hcap < INV ∧ hcap = 2 * ecap := by
  have hI : 2 < INV := by decide
  unfold getNewEdgeTriple
  simp only [decide_eq_true_eq]
  split_ifs
  all_goals first
    | omega
    | (left; refine ⟨rfl, ?_⟩; unfold nearLimit; omega)
    | (refine Or.inr ⟨_, _, rfl, ?_, ?_, ?_⟩ <;> omega)

theorem ivae_spec {m : Mesh} (hv : m.Valid) {e : ℕ} (he : m.heLive (eHalfedge e))
    (hd : m.heNext (twin (eHalfedge e)) ≠ eHalfedge e) :
    (m.insertVertexAlongEdge e = .error .oom ∧ m.nearLimit 1) ∨
    ∃ m' pA, m.insertVertexAlongEdge e = .ok (m', eHalfedge e) ∧
      IvaeSpec m m' (eHalfedge e) (twin (eHalfedge e)) pA m.nHeFill (m.nHeFill + 1) m.nVFill := by
  have vl := hv.vertex_live _ he
  have hle := hv.v_cap
  unfold insertVertexAlongEdge
  rcases getNewVertex_ok (m := m) (by have := vl.1; omega) hle.1 hle.2 with ⟨h1, lim⟩ | ⟨vcap, h1, h1a, h1b⟩
  · left; rw [h1]; exact ⟨rfl, lim.mono (by omega) (by omega) (by omega)⟩
  rw [h1]
  simp only
  set m1 : Mesh := { m with nVCap := vcap, nVFill := m.nVFill + 1, nV := m.nV + 1 } with hm1
  rcases getNewEdgeTriple_ok (m := m1) hv.he_fill hv.he_cap.1 hv.e_cap hv.he_cap.2 (decide (m.eIsBoundary e)) with
    ⟨h2, lim⟩ | ⟨hcap, ecap, h2, h2a, h2b, h2c⟩
  · left; rw [h2]; exact ⟨rfl, lim.mono (by simp only [hm1]; omega) (by simp only [hm1]; omega) (by simp only [hm1]; omega)⟩
  right
  rw [h2]
  simp only
  obtain ⟨pA, h3, lp, np⟩ := hv.prevOrbitFace_fuel (N := m.nHeFill + 2) he (by omega)
  unfold prevOrbitFace
  simp only [hm1]
  rw [h3]
  refine ⟨_, pA, rfl, ?_⟩
  have heven : twin m.nHeFill = m.nHeFill + 1 := by rw [hv.he_fill, twin_two_mul]
  set A := eHalfedge e
  have tl := hv.twin_live _ he
  have A0 : A ≠ m.nHeFill := (ne_of_lt he.1)
  have A1 : A ≠ m.nHeFill + 1 := by have := he.1; omega
  have B0 : twin A ≠ m.nHeFill := (ne_of_lt tl.1)
  have B1 : twin A ≠ m.nHeFill + 1 := by have := tl.1; omega
  have p0 : pA ≠ m.nHeFill := (ne_of_lt lp.1)
  have p1 : pA ≠ m.nHeFill + 1 := by have := lp.1; omega
  have pB : pA ≠ twin A := by rintro rfl; exact hd np
  have n01 : m.nHeFill ≠ m.nHeFill + 1 := by omega
  have AB : A ≠ twin A := (twin_ne A).symm
  have bdry : m.eIsBoundary e ↔ m.ext (twin A) := by
    unfold eIsBoundary heIsInterior faceIsBL ext; rw [not_not]
  constructor
  case lA => exact he
  case lp => exact lp
  case np => exact np
  case nBA => exact hd
  case iA => exact hv.edge_int e he
  case c_heCap => exact ⟨h2a, h2b⟩
  case c_eCap => exact h2c
  case c_vCap => exact ⟨h1a, h1b⟩
  case c_int =>
    simp only [insertVertexWrites, decide_eq_true_eq, bdry]
    split_ifs <;> rfl
  case vh =>
    intro v
    have hvv : m.heVertex A ≠ m.nVFill := ne_of_lt vl.1
    simp only [insertVertexWrites, heven]
    by_cases c : m.vHalfedge (m.heVertex A) = A
    · have c' : upd m.vHalfedge m.nVFill A (m.heVertex A) = A := by rw [upd_ne _ _ hvv, c]
      rw [if_pos c', upd_apply, upd_apply]
      by_cases hv1 : v = m.heVertex A
      · subst hv1; simp [hvv, c]
      · simp [hv1]
    · have c' : ¬ upd m.vHalfedge m.nVFill A (m.heVertex A) = A := by rw [upd_ne _ _ hvv]; exact c
      rw [if_neg c', upd_apply]
      by_cases hv1 : v = m.heVertex A
      · subst hv1; simp [hvv, c]
      · simp [hv1]
  all_goals first
    | rfl
    | (simp only [insertVertexWrites, heven, upd_apply]
       simp [A0, n01, p0.symm, B0.symm, n01.symm, p1.symm, B1.symm, B0, B1, pB.symm, A0.symm]; done)
    | (simp only [insertVertexWrites, heven, upd_apply]
       intros; simp [*]; done)

theorem ivae_valid {m m' : Mesh} (hv : m.Valid) {A B pA n0 n1 nv : ℕ}
    (S : IvaeSpec m m' A B pA n0 n1 nv) : m'.Valid := by
  have lA := S.lA
  have lB : m.heLive B := by rw [S.hB]; exact hv.twin_live _ lA
  have lp := S.lp
  have tA : twin A = B := S.hB.symm
  have tB : twin B = A := by rw [S.hB, twin_twin]
  have lt : ∀ {i}, m.heLive i → i ≠ n0 ∧ i ≠ n1 := by
    intro i hi; have := hi.1; rw [S.hn0, S.hn1]; constructor <;> omega
  have tn0 : twin n0 = n1 := by rw [S.hn0, S.hn1, hv.he_fill, twin_two_mul]
  have tn1 : twin n1 = n0 := by rw [← tn0, twin_twin]
  have n01 : n0 ≠ n1 := by rw [S.hn0, S.hn1]; omega
  have dn0 : ¬ m.heLive n0 := fun h => (lt h).1 rfl
  have dn1 : ¬ m.heLive n1 := fun h => (lt h).2 rfl
  have AB : A ≠ B := by rw [S.hB]; exact (twin_ne A).symm
  have pB : pA ≠ B := by intro e; apply S.nBA; rw [← e]; exact S.np
  have nBlive := hv.next_live _ lB
  have cap := hv.he_cap
  have capc := S.c_heCap
  have ltI : ∀ {i}, i < m'.nHeFill → i ≠ INV := by
    intro i hi; rw [S.c_heFill] at hi; omega
  -- liveness
  have nextNe : ∀ i, m'.heNext i ≠ INV ↔ (i = n0 ∨ i = n1 ∨ m.heNext i ≠ INV) := by
    intro i
    have hAne : A ≠ INV := (hv.live_lt_INV lA).ne
    have n0ne : n0 ≠ INV := by rw [S.hn0]; omega
    have n1ne : n1 ≠ INV := by rw [S.hn1]; omega
    by_cases h0 : i = n0
    · subst h0; rw [S.next_n0]; simp [hAne]
    by_cases h1 : i = n1
    · subst h1; rw [S.next_n1]; simp [lB.2]
    by_cases h2 : i = B
    · subst h2; rw [S.next_B]; simp [n1ne, lB.2]
    by_cases h3 : i = pA
    · subst h3; rw [S.next_p]; simp [n0ne, lp.2]
    rw [S.next_o i h0 h1 h2 h3]; simp [h0, h1]
  have hlive : ∀ i, m'.heLive i ↔ (i = n0 ∨ i = n1 ∨ m.heLive i) := by
    intro i
    unfold heLive
    rw [nextNe, S.c_heFill]
    have e0 := S.hn0; have e1 := S.hn1
    constructor
    · rintro ⟨h1, h2 | h2 | h2⟩
      · exact Or.inl h2
      · exact Or.inr (Or.inl h2)
      · by_cases h0 : i = n0
        · exact Or.inl h0
        by_cases h1 : i = n1
        · exact Or.inr (Or.inl h1)
        exact Or.inr (Or.inr ⟨by omega, h2⟩)
    · rintro (h | h | h)
      · exact ⟨by omega, Or.inl h⟩
      · exact ⟨by omega, Or.inr (Or.inl h)⟩
      · exact ⟨by omega, Or.inr (Or.inr h.2)⟩
  have live_old : ∀ {i}, m.heLive i → m'.heLive i := fun h => (hlive _).2 (Or.inr (Or.inr h))
  have live_n0 : m'.heLive n0 := (hlive _).2 (Or.inl rfl)
  have live_n1 : m'.heLive n1 := (hlive _).2 (Or.inr (Or.inl rfl))
  have htl : ∀ i, m'.heLive i → m'.heLive (twin i) := by
    intro i hi
    rcases (hlive i).1 hi with rfl | rfl | h
    · rw [tn0]; exact live_n1
    · rw [tn1]; exact live_n0
    · exact live_old (hv.twin_live _ h)
  have hnl : ∀ i, m'.heLive i → m'.heLive (m'.heNext i) := by
    intro i hi
    by_cases h0 : i = n0
    · subst h0; rw [S.next_n0]; exact live_old lA
    by_cases h1 : i = n1
    · subst h1; rw [S.next_n1]; exact live_old nBlive
    by_cases h2 : i = B
    · subst h2; rw [S.next_B]; exact live_n1
    by_cases h3 : i = pA
    · subst h3; rw [S.next_p]; exact live_n0
    rw [S.next_o i h0 h1 h2 h3]
    rcases (hlive i).1 hi with h | h | h
    · exact absurd h h0
    · exact absurd h h1
    · exact live_old (hv.next_live _ h)
  -- next as a composition of insertions
  have fix0 : m.nx n0 = n0 := nx_dead dn0
  have fix1 : swapf m.nx pA n0 n1 = n1 := by
    rw [swapf_other _ (lt lp).2.symm n01.symm]; exact nx_dead dn1
  have hnx : m'.nx = swapf (swapf m.nx pA n0) B n1 := by
    funext i
    by_cases h2 : i = B
    · subst h2; rw [swapf_left, fix1, nx_live (live_old lB), S.next_B]
    by_cases h1 : i = n1
    · subst h1
      rw [swapf_right, swapf_other _ pB.symm (lt lB).1, nx_live lB, nx_live live_n1, S.next_n1]
    rw [swapf_other _ h2 h1]
    by_cases h3 : i = pA
    · subst h3; rw [swapf_left, fix0, nx_live (live_old lp), S.next_p]
    by_cases h0 : i = n0
    · subst h0; rw [swapf_right, nx_live lp, S.np, nx_live live_n0, S.next_n0]
    rw [swapf_other _ h3 h0]
    by_cases hl : m.heLive i
    · rw [nx_live hl, nx_live (live_old hl), S.next_o i h0 h1 h2 h3]
    · rw [nx_dead hl, nx_dead]
      intro h; rcases (hlive i).1 h with h | h | h
      · exact h0 h
      · exact h1 h
      · exact hl h
  have per1 := hv.per_nx.swapf pA n0
  have per' : Per m'.nx := by rw [hnx]; exact per1.swapf _ _
  have orbF : ∀ {i j}, m.heLive i → m.heLive j → (Orb m'.nx i j ↔ Orb m.nx i j) := by
    intro i j hi hj
    rw [hnx, swapf_insert per1 fix1 (lt lB).2 (lt hi).2 (lt hj).2,
      swapf_insert hv.per_nx fix0 (lt lp).1 (lt hi).1 (lt hj).1]
  let ρ : ℕ → ℕ := fun i => if i = n0 then A else if i = n1 then B else i
  have hρ : ∀ i, m'.heLive i → m.heLive (ρ i) ∧ Orb m'.nx i (ρ i) ∧ m'.heFace i = m.heFace (ρ i) := by
    intro i hi
    simp only [ρ]
    by_cases h0 : i = n0
    · subst h0
      rw [if_pos rfl]
      exact ⟨lA, ⟨1, by rw [Function.iterate_one, nx_live live_n0, S.next_n0]⟩, S.f_n0⟩
    rw [if_neg h0]
    by_cases h1 : i = n1
    · subst h1
      rw [if_pos rfl]
      refine ⟨lB, Orb.symm per' ⟨1, by rw [Function.iterate_one, nx_live (live_old lB), S.next_B]⟩, S.f_n1⟩
    rw [if_neg h1]
    rcases (hlive i).1 hi with h | h | h
    · exact absurd h h0
    · exact absurd h h1
    · exact ⟨h, Orb.refl _ _, S.f_o i h0 h1⟩
  have fconn : ∀ i j, m'.heLive i → m'.heLive j → (m'.heFace i = m'.heFace j ↔ Orb m'.nx i j) := by
    intro i j hi hj
    obtain ⟨l1, o1, e1⟩ := hρ i hi
    obtain ⟨l2, o2, e2⟩ := hρ j hj
    rw [e1, e2, hv.face_nx_iff l1 l2, ← orbF l1 l2]
    constructor
    · intro o; exact o1.trans (o.trans (o2.symm per'))
    · intro o; exact (o1.symm per').trans (o.trans o2)
  -- vertices: exchange A and n0
  let σ : ℕ → ℕ := fun i => if i = A then n0 else if i = n0 then A else i
  have An0 : A ≠ n0 := (lt lA).1
  have An1 : A ≠ n1 := (lt lA).2
  have σA : σ A = n0 := by simp [σ]
  have σn : σ n0 = A := by simp [σ, An0.symm]
  have σo : ∀ {i}, i ≠ A → i ≠ n0 → σ i = i := by intro i h1 h2; simp [σ, h1, h2]
  have hσ : ∀ i, σ (σ i) = i := by
    intro i
    by_cases h1 : i = A
    · subst h1; rw [σA, σn]
    by_cases h2 : i = n0
    · subst h2; rw [σn, σA]
    rw [σo h1 h2, σo h1 h2]
  have hvx : ∀ i, m'.vx i = σ (m.vx (σ i)) := by
    intro i
    have e1 : m'.vx i = m'.nx (twin i) := rfl
    have e2 : ∀ k, m.vx k = m.nx (twin k) := fun _ => rfl
    rw [e1]
    by_cases h1 : i = A
    · subst h1
      rw [σA, e2, tn0, nx_dead dn1, tA, nx_live (live_old lB), S.next_B, σo An1.symm n01.symm]
    by_cases h2 : i = n0
    · subst h2
      rw [σn, e2, tA, nx_live lB, tn0, nx_live live_n1, S.next_n1, σo S.nBA (lt nBlive).1]
    rw [σo h1 h2, e2]
    by_cases h3 : i = n1
    · subst h3
      rw [tn1, nx_dead dn0, σn, nx_live live_n0, S.next_n0]
    have t0 : twin i ≠ n0 := by intro e; apply h3; rw [← tn0, ← e, twin_twin]
    have t1 : twin i ≠ n1 := by intro e; apply h2; rw [← tn1, ← e, twin_twin]
    have tb : twin i ≠ B := by intro e; apply h1; rw [← tB, ← e, twin_twin]
    by_cases h4 : twin i = pA
    · rw [h4, nx_live lp, S.np, σA, nx_live (live_old lp), S.next_p]
    by_cases hl : m.heLive (twin i)
    · rw [nx_live hl, nx_live (live_old hl), S.next_o _ t0 t1 tb h4, σo _ (lt (hv.next_live _ hl)).1]
      intro e; exact h4 (hv.next_inj hl lp (by rw [e, S.np]))
    · rw [nx_dead hl, nx_dead, σo _ t0]
      · intro e; exact hl (e ▸ lA)
      · intro h; rcases (hlive _).1 h with h | h | h
        · exact t0 h
        · exact t1 h
        · exact hl h
  have vnv : ∀ {i}, m.heLive i → m.heVertex i ≠ nv := by
    intro i hi; rw [S.hnv]; exact ne_of_lt (hv.vertex_live i hi).1
  have vlab : ∀ i, m'.heVertex i = if i = A ∨ i = n1 then nv else m.heVertex (σ i) := by
    intro i
    by_cases h1 : i = A
    · subst h1; simp [S.v_A]
    by_cases h3 : i = n1
    · subst h3; simp [S.v_n1]
    rw [if_neg (by tauto)]
    by_cases h2 : i = n0
    · subst h2; rw [σn, S.v_n0]
    rw [σo h1 h2, S.v_o i h2 h3 h1]
  have dvx0 : m.vx n0 = n1 := by show m.nx (twin n0) = n1; rw [tn0, nx_dead dn1]
  have dvx1 : m.vx n1 = n0 := by show m.nx (twin n1) = n0; rw [tn1, nx_dead dn0]
  have liveσ : ∀ {i}, m'.heLive i → ¬ (i = A ∨ i = n1) → m.heLive (σ i) := by
    intro i hi hn
    push Not at hn
    rcases (hlive i).1 hi with h | h | h
    · rw [h, σn]; exact lA
    · exact absurd h hn.2
    · rw [σo hn.1 (lt h).1]; exact h
  have newOrb : ∀ {i}, (i = A ∨ i = n1) → (σ i = n0 ∨ σ i = n1) := by
    rintro i (rfl | rfl)
    · left; exact σA
    · right; exact σo An1.symm n01.symm
  have dead_closed : ∀ {x y}, (x = n0 ∨ x = n1) → Orb m.vx x y → (y = n0 ∨ y = n1) := by
    intro x y hx o
    refine o.mem (fun z => z = n0 ∨ z = n1) hx ?_
    rintro z (rfl | rfl)
    · right; exact dvx0
    · left; exact dvx1
  have vconn : ∀ i j, m'.heLive i → m'.heLive j → (m'.heVertex i = m'.heVertex j ↔ Orb m'.vx i j) := by
    intro i j hi hj
    rw [orb_conj hσ hvx, vlab i, vlab j]
    by_cases ci : i = A ∨ i = n1 <;> by_cases cj : j = A ∨ j = n1
    · rw [if_pos ci, if_pos cj]
      refine iff_of_true rfl ?_
      rcases newOrb ci with e | e <;> rcases newOrb cj with e' | e' <;> rw [e, e']
      · exact Orb.refl _ _
      · exact ⟨1, dvx0⟩
      · exact ⟨1, dvx1⟩
      · exact Orb.refl _ _
    · rw [if_pos ci, if_neg cj]
      have lj := liveσ hj cj
      refine iff_of_false (vnv lj).symm ?_
      intro o
      rcases dead_closed (newOrb ci) o with e | e <;> rw [e] at lj
      · exact dn0 lj
      · exact dn1 lj
    · rw [if_neg ci, if_pos cj]
      have li := liveσ hi ci
      refine iff_of_false (vnv li) ?_
      intro o
      rcases dead_closed (newOrb cj) (o.symm hv.per_vx) with e | e <;> rw [e] at li
      · exact dn0 li
      · exact dn1 li
    · rw [if_neg ci, if_neg cj, hv.vertex_vx_iff (liveσ hi ci) (liveσ hj cj)]
  -- elements
  have vhne : ∀ v, v ≠ nv → (m'.vHalfedge v ≠ INV ↔ m.vHalfedge v ≠ INV) := by
    intro v hne
    rw [S.vh, if_neg hne]
    split_ifs with h
    · rw [h.2]
      exact iff_of_true (by rw [S.hn0]; omega) (hv.live_lt_INV lA).ne
    · rfl
  have vhnv : m'.vHalfedge nv ≠ INV := by rw [S.vh, if_pos rfl]; exact (hv.live_lt_INV lA).ne
  have vlive_old : ∀ {v}, m.vLive v → m'.vLive v := by
    intro v h
    refine ⟨by rw [S.c_vFill]; have := h.1; omega, (vhne v ?_).2 h.2⟩
    rw [S.hnv]; exact ne_of_lt h.1
  have vlive_new : m'.vLive nv := ⟨by rw [S.c_vFill, S.hnv]; omega, vhnv⟩
  have vlive_inv : ∀ {v}, m'.vLive v → v = nv ∨ m.vLive v := by
    intro v h
    by_cases e : v = nv
    · exact Or.inl e
    · refine Or.inr ⟨?_, (vhne v e).1 h.2⟩
      have := h.1; rw [S.c_vFill] at this; have := S.hnv; omega
  have flive : ∀ f, m'.fLive f ↔ m.fLive f := by
    intro f; unfold fLive; rw [S.c_fFill, S.c_fCap, S.c_blFill, S.fh]
  have hextρ : ∀ i, m'.heLive i → (m'.ext i ↔ m.ext (ρ i)) := by
    intro i hi; unfold ext; rw [(hρ i hi).2.2, S.c_fFill]
  have ext_old : ∀ {i}, m.heLive i → (m'.ext i ↔ m.ext i) := by
    intro i hi; unfold ext; rw [S.f_o i (lt hi).1 (lt hi).2, S.c_fFill]
  have ext_n0 : ¬ m'.ext n0 := by unfold ext; rw [S.f_n0, S.c_fFill]; exact S.iA
  have ext_n1 : m'.ext n1 ↔ m.ext B := by unfold ext; rw [S.f_n1, S.c_fFill]
  -- tail of an old exterior halfedge
  have vext : ∀ {i}, m.heLive i → m.ext i → m'.heVertex i = m.heVertex i := by
    intro i hi ei
    refine S.v_o i (lt hi).1 (lt hi).2 ?_
    rintro rfl; exact S.iA ei
  constructor
  · rw [S.c_heFill, S.c_eFill, hv.he_fill]; omega
  · rw [S.c_heFill]; exact S.c_heCap
  · exact S.c_eCap
  · rw [S.c_vFill]; exact S.c_vCap
  · rw [S.c_fFill, S.c_fCap, S.c_blFill]; exact hv.f_cap
  · exact htl
  · exact hnl
  · intro i hi
    rw [vlab]
    split_ifs with c
    · exact vlive_new
    · exact vlive_old (hv.vertex_live _ (liveσ hi c))
  · intro i hi
    rw [flive, (hρ i hi).2.2]
    exact hv.face_live _ (hρ i hi).1
  · exact face_iff_of' hnl fconn
  · exact vertex_iff_of htl hnl vconn
  · intro v hvl
    rw [S.vh]
    by_cases e : v = nv
    · subst e; rw [if_pos rfl]; exact ⟨live_old lA, S.v_A⟩
    rw [if_neg e]
    have hvl0 := (vlive_inv hvl).resolve_left e
    obtain ⟨l0, e0⟩ := hv.v_he v hvl0
    split_ifs with c
    · refine ⟨live_n0, ?_⟩
      rw [S.v_n0, c.1]
    · refine ⟨live_old l0, ?_⟩
      rw [S.v_o _ (lt l0).1 (lt l0).2, e0]
      intro e'; exact c ⟨by rw [← e0, e'], e'⟩
  · intro f hf
    rw [flive] at hf
    obtain ⟨l0, e0⟩ := hv.f_he f hf
    rw [S.fh]
    exact ⟨live_old l0, by rw [S.f_o _ (lt l0).1 (lt l0).2, e0]⟩
  · intro i hi
    by_cases h0 : i = n0
    · subst h0; rw [S.next_n0]; exact An0
    by_cases h1 : i = n1
    · subst h1; rw [S.next_n1]; exact (lt nBlive).2
    by_cases h2 : i = B
    · subst h2; rw [S.next_B]; exact (lt lB).2.symm
    by_cases h3 : i = pA
    · subst h3; rw [S.next_p]; exact (lt lp).1.symm
    rw [S.next_o i h0 h1 h2 h3]
    rcases (hlive i).1 hi with h | h | h
    · exact absurd h h0
    · exact absurd h h1
    · exact hv.deg_two i h
  · intro e he
    rcases (hlive _).1 he with h | h | h
    · rw [h]; exact ext_n0
    · exfalso; unfold eHalfedge at h; have := S.hn1; have := hv.he_fill; omega
    · rw [ext_old h]; exact hv.edge_int e h
  · intro i j hi hj ei ej hij
    have old : ∀ {k}, m'.heLive k → m'.ext k → k = n1 ∨ (m.heLive k ∧ m.ext k) := by
      intro k hk ek
      rcases (hlive k).1 hk with h | h | h
      · rw [h] at ek; exact absurd ek ext_n0
      · exact Or.inl h
      · exact Or.inr ⟨h, (ext_old h).1 ek⟩
    rcases old hi ei with h1 | ⟨l1, x1⟩ <;> rcases old hj ej with h2 | ⟨l2, x2⟩
    · rw [h1, h2]
    · rw [h1, S.v_n1, vext l2 x2] at hij; exact absurd hij.symm (vnv l2)
    · rw [h2, S.v_n1, vext l1 x1] at hij; exact absurd hij (vnv l1)
    · rw [vext l1 x1, vext l2 x2] at hij
      exact hv.bdy_unique i j l1 l2 x1 x2 hij
  · intro i hi ei
    rcases (hlive i).1 hi with h | h | h
    · rw [h] at ei; exact absurd ei ext_n0
    · subst h
      rw [S.v_n1, S.vh, if_pos rfl, tA, ext_old lB]
      exact ext_n1.1 ei
    · have e0 := (ext_old h).1 ei
      have b0 := hv.bdy_first i h e0
      rw [vext h e0, S.vh, if_neg (vnv h)]
      split_ifs with c
      · rw [tn0, ext_n1]
        rw [c.2, tA] at b0; exact b0
      · have l0 := (hv.v_he _ (hv.vertex_live i h)).1
        rw [ext_old (hv.twin_live _ l0)]; exact b0
  · have hc : Nat.count (fun i => m'.heNext i ≠ INV) m.nHeFill =
        Nat.count (fun i => m.heNext i ≠ INV) m.nHeFill := by
      refine count_congr fun i hi => ?_
      rw [nextNe]; have := S.hn0; have := S.hn1
      constructor
      · rintro (h | h | h)
        · omega
        · omega
        · exact h
      · intro h; exact Or.inr (Or.inr h)
    rw [S.c_he, S.c_heFill, Nat.count_succ, Nat.count_succ, hc, hv.cnt_he, ← S.hn0,
      show n0 + 1 = n1 by rw [S.hn0, S.hn1], if_pos live_n0.2, if_pos live_n1.2]
  · have hc : Nat.count (fun i => m'.heNext i ≠ INV ∧ m'.heFace i < m'.nFFill) m.nHeFill =
        Nat.count (fun i => m.heNext i ≠ INV ∧ m.heFace i < m.nFFill) m.nHeFill := by
      refine count_congr fun i hi => ?_
      have := S.hn0; have := S.hn1
      rw [nextNe, S.c_fFill, S.f_o i (by omega) (by omega)]
      constructor
      · rintro ⟨h | h | h, h'⟩
        · omega
        · omega
        · exact ⟨h, h'⟩
      · rintro ⟨h, h'⟩; exact ⟨Or.inr (Or.inr h), h'⟩
    rw [S.c_int, S.c_heFill, Nat.count_succ, Nat.count_succ, hc, hv.cnt_int, ← S.hn0,
      show n0 + 1 = n1 by rw [S.hn0, S.hn1]]
    have i0 : m'.heFace n0 < m'.nFFill := by have := ext_n0; unfold ext at this; omega
    rw [if_pos (⟨live_n0.2, i0⟩ : m'.heNext n0 ≠ INV ∧ m'.heFace n0 < m'.nFFill)]
    by_cases c : m.ext B
    · have i1 : ¬ m'.heFace n1 < m'.nFFill := by have := ext_n1.2 c; unfold ext at this; omega
      rw [if_pos c, if_neg (fun h => i1 h.2)]
    · have i1 : m'.heFace n1 < m'.nFFill := by
        by_contra h; exact c (ext_n1.1 (by unfold ext; omega))
      rw [if_neg c, if_pos ⟨live_n1.2, i1⟩]
  · rw [S.c_e, S.c_eFill, Nat.count_succ, hv.cnt_e,
      show eHalfedge m.nEFill = n0 by unfold eHalfedge; rw [S.hn0, hv.he_fill], if_pos live_n0.2]
    congr 1
    refine count_congr fun i hi => ?_
    rw [nextNe]; have := S.hn0; have := S.hn1; have := hv.he_fill
    unfold eHalfedge
    constructor
    · intro h; exact Or.inr (Or.inr h)
    · rintro (h | h | h)
      · omega
      · omega
      · exact h
  · rw [S.c_v, S.c_vFill, Nat.count_succ, hv.cnt_v, ← S.hnv, if_pos vhnv]
    congr 1
    refine count_congr fun i hi => ?_
    rw [vhne i (by omega)]
  · rw [S.c_f, S.c_fFill, S.fh]; exact hv.cnt_f
  · rw [S.c_bl, S.c_blFill]; exact hv.cnt_bl
  · intro f; rw [S.c_fCap, S.c_blFill, S.fh]; exact hv.bl_live f

end Mesh
end GC
