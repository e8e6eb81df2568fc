import Verif.MeshFaceStore

/-! # connectVertices (model and helper lemmas) -/

set_option linter.unusedSimpArgs false

namespace GC
namespace Mesh

/-- `ManifoldSurfaceMesh::connectVertices`, manifold_surface_mesh.cpp:623-673. Returns the new mesh and
the new halfedge. The `GC_SAFETY_ASSERT`s (compiled in by default) throw. -/
def connectVertices (m : Mesh) (heA heB : ℕ) : Res (Mesh × ℕ) :=
  match m.prevOrbitVertex heA, m.prevOrbitVertex heB with
  | .error x, _ => .error x
  | _, .error x => .error x
  | .ok pA, .ok pB =>
    let vA := m.heVertex heA
    let vB := m.heVertex heB
    let fA := m.heFace heA
    if m.heFace heA ≠ m.heFace heB then .error .throw
    else if ¬ (heA ≠ pB ∧ pA ≠ heB) then .error .throw
    else if heA = heB then .error .throw
    else match m.getNewEdgeTriple false with
    | .error x => .error x
    | .ok (m1, n0) =>
      match m1.getNewFace with
      | .error x => .error x
      | .ok (m2, fB) =>
        let n1 := twin n0
        let next := upd (upd (upd (upd m2.heNext n0 heB) n1 heA) pA n0) pB n1
        let face := upd (upd m2.heFace n0 fA) n1 fB
        match relabel next n1 fB m2.nHeFill heA face with
        | .error x => .error x
        | .ok face' => .ok ({ m2 with
            fHalfedge := upd (upd m2.fHalfedge fA n0) fB n1,
            heNext := next,
            heVertex := upd (upd m2.heVertex n0 vA) n1 vB,
            heFace := face' }, n0)

/-- Pointwise effect of `connectVertices` on a mesh `m` that has a free face slot. -/
structure ConnSpec (m m' : Mesh) (A B pA pB n0 n1 fA fB : ℕ) : Prop where
  lA : m.heLive A
  lB : m.heLive B
  lpA : m.heLive pA
  lpB : m.heLive pB
  npA : m.heNext pA = A
  npB : m.heNext pB = B
  fAB : m.heFace B = m.heFace A
  hfA : fA = m.heFace A
  hfB : fB = m.nFFill
  iA : ¬ m.ext A
  AB : A ≠ B
  ApB : A ≠ pB
  pAB : pA ≠ B
  hn0 : n0 = m.nHeFill
  hn1 : n1 = m.nHeFill + 1
  next_n0 : m'.heNext n0 = B
  next_n1 : m'.heNext n1 = A
  next_pA : m'.heNext pA = n0
  next_pB : m'.heNext pB = n1
  next_o : ∀ i, i ≠ n0 → i ≠ n1 → i ≠ pA → i ≠ pB → m'.heNext i = m.heNext i
  v_n0 : m'.heVertex n0 = m.heVertex A
  v_n1 : m'.heVertex n1 = m.heVertex B
  v_o : ∀ i, i ≠ n0 → i ≠ n1 → m'.heVertex i = m.heVertex i
  f_n0 : m'.heFace n0 = fA
  f_n1 : m'.heFace n1 = fB
  f_new : ∀ i, i ≠ n0 → i ≠ n1 → Orb m'.heNext A i → m'.heFace i = fB
  f_o : ∀ i, i ≠ n0 → i ≠ n1 → ¬ Orb m'.heNext A i → m'.heFace i = m.heFace i
  vh : m'.vHalfedge = m.vHalfedge
  fh : ∀ f, m'.fHalfedge f = if f = fB then n1 else if f = fA then n0 else m.fHalfedge f
  c_heFill : m'.nHeFill = m.nHeFill + 2
  c_heCap : m.nHeFill + 2 ≤ m'.nHeCap ∧ m'.nHeCap < INV
  c_eFill : m'.nEFill = m.nEFill + 1
  c_eCap : m'.nHeCap = 2 * m'.nECap
  c_vFill : m'.nVFill = m.nVFill
  c_vCap : m'.nVCap = m.nVCap
  c_fFill : m'.nFFill = m.nFFill + 1
  c_fCap : m'.nFCap = m.nFCap
  c_space : m.nFFill + 1 + m.nBLFill ≤ m.nFCap
  c_blFill : m'.nBLFill = m.nBLFill
  c_he : m'.nHe = m.nHe + 2
  c_int : m'.nInt = m.nInt + 2
  c_e : m'.nE = m.nE + 1
  c_v : m'.nV = m.nV
  c_f : m'.nF = m.nF + 1
  c_bl : m'.nBL = m.nBL

section
variable {m m' : Mesh} {A B pA pB n0 n1 fA fB : ℕ}

/-- Facts shared by the lemmas about `connectVertices`. -/
structure ConnFacts (m m' : Mesh) (A B pA pB n0 n1 fA fB : ℕ) : Prop where
  lt : ∀ {i}, m.heLive i → i ≠ n0 ∧ i ≠ n1
  tn0 : twin n0 = n1
  tn1 : twin n1 = n0
  n01 : n0 ≠ n1
  dn0 : ¬ m.heLive n0
  dn1 : ¬ m.heLive n1
  pne : pA ≠ pB
  nextNe : ∀ i, m'.heNext i ≠ INV ↔ (i = n0 ∨ i = n1 ∨ m.heNext i ≠ INV)
  hlive : ∀ i, m'.heLive i ↔ (i = n0 ∨ i = n1 ∨ m.heLive i)
  htl : ∀ i, m'.heLive i → m'.heLive (twin i)
  hnl : ∀ i, m'.heLive i → m'.heLive (m'.heNext i)
  nxeq : m'.nx = swapf (swapf (swapf m.nx pA pB) pA n0) pB n1
  per' : Per m'.nx
  split : ¬ Orb (swapf m.nx pA pB) A B
  orbF : ∀ {i j}, m.heLive i → m.heLive j → (Orb m'.nx i j ↔ Orb (swapf m.nx pA pB) i j)

theorem connFacts (hv : m.Valid) (S : ConnSpec m m' A B pA pB n0 n1 fA fB) :
    ConnFacts m m' A B pA pB n0 n1 fA fB := by
  have lA := S.lA; have lB := S.lB; have lpA := S.lpA; have lpB := S.lpB
  have lt : ∀ {i}, m.heLive i → i ≠ n0 ∧ i ≠ n1 := by
    intro i hi; have := hi.1; rw [S.hn0, S.hn1]; constructor <;> omega
  have tn0 : twin n0 = n1 := by rw [S.hn0, S.hn1, hv.he_fill, twin_two_mul]
  have tn1 : twin n1 = n0 := by rw [← tn0, twin_twin]
  have n01 : n0 ≠ n1 := by rw [S.hn0, S.hn1]; omega
  have dn0 : ¬ m.heLive n0 := fun h => (lt h).1 rfl
  have dn1 : ¬ m.heLive n1 := fun h => (lt h).2 rfl
  have pne : pA ≠ pB := by
    rintro rfl; exact S.AB (by rw [← S.npA, S.npB])
  have capc := S.c_heCap
  have n0ne : n0 ≠ INV := by rw [S.hn0]; omega
  have n1ne : n1 ≠ INV := by rw [S.hn1]; omega
  have nextNe : ∀ i, m'.heNext i ≠ INV ↔ (i = n0 ∨ i = n1 ∨ m.heNext i ≠ INV) := by
    intro i
    by_cases h0 : i = n0
    · subst h0; rw [S.next_n0]; simp [(hv.live_lt_INV lB).ne]
    by_cases h1 : i = n1
    · subst h1; rw [S.next_n1]; simp [(hv.live_lt_INV lA).ne]
    by_cases h2 : i = pA
    · subst h2; rw [S.next_pA]; simp [n0ne, lpA.2]
    by_cases h3 : i = pB
    · subst h3; rw [S.next_pB]; simp [n1ne, lpB.2]
    rw [S.next_o i h0 h1 h2 h3]; simp [h0, h1]
  have hlive : ∀ i, m'.heLive i ↔ (i = n0 ∨ i = n1 ∨ m.heLive i) := by
    intro i
    unfold heLive
    rw [nextNe, S.c_heFill]
    have e0 := S.hn0; have e1 := S.hn1
    constructor
    · rintro ⟨h1, h2 | h2 | h2⟩
      · exact Or.inl h2
      · exact Or.inr (Or.inl h2)
      · by_cases h0 : i = n0
        · exact Or.inl h0
        by_cases h1 : i = n1
        · exact Or.inr (Or.inl h1)
        exact Or.inr (Or.inr ⟨by omega, h2⟩)
    · rintro (h | h | h)
      · exact ⟨by omega, Or.inl h⟩
      · exact ⟨by omega, Or.inr (Or.inl h)⟩
      · exact ⟨by omega, Or.inr (Or.inr h.2)⟩
  have live_old : ∀ {i}, m.heLive i → m'.heLive i := fun h => (hlive _).2 (Or.inr (Or.inr h))
  have live_n0 : m'.heLive n0 := (hlive _).2 (Or.inl rfl)
  have live_n1 : m'.heLive n1 := (hlive _).2 (Or.inr (Or.inl rfl))
  have htl : ∀ i, m'.heLive i → m'.heLive (twin i) := by
    intro i hi
    rcases (hlive i).1 hi with rfl | rfl | h
    · rw [tn0]; exact live_n1
    · rw [tn1]; exact live_n0
    · exact live_old (hv.twin_live _ h)
  have hnl : ∀ i, m'.heLive i → m'.heLive (m'.heNext i) := by
    intro i hi
    by_cases h0 : i = n0
    · subst h0; rw [S.next_n0]; exact live_old lB
    by_cases h1 : i = n1
    · subst h1; rw [S.next_n1]; exact live_old lA
    by_cases h2 : i = pA
    · subst h2; rw [S.next_pA]; exact live_n0
    by_cases h3 : i = pB
    · subst h3; rw [S.next_pB]; exact live_n1
    rw [S.next_o i h0 h1 h2 h3]
    rcases (hlive i).1 hi with h | h | h
    · exact absurd h h0
    · exact absurd h h1
    · exact live_old (hv.next_live _ h)
  have per1 := hv.per_nx.swapf pA pB
  have fix0 : swapf m.nx pA pB n0 = n0 := by
    rw [swapf_other _ (lt lpA).1.symm (lt lpB).1.symm]; exact nx_dead dn0
  have per2 := per1.swapf pA n0
  have fix1 : swapf (swapf m.nx pA pB) pA n0 n1 = n1 := by
    rw [swapf_other _ (lt lpA).2.symm n01.symm, swapf_other _ (lt lpA).2.symm (lt lpB).2.symm]
    exact nx_dead dn1
  have nxeq : m'.nx = swapf (swapf (swapf m.nx pA pB) pA n0) pB n1 := by
    funext i
    by_cases h3 : i = pB
    · subst h3; rw [swapf_left, fix1, nx_live (live_old lpB), S.next_pB]
    by_cases h1 : i = n1
    · subst h1
      rw [swapf_right, swapf_other _ pne.symm (lt lpB).1, swapf_right, nx_live lpA, S.npA,
        nx_live live_n1, S.next_n1]
    rw [swapf_other _ h3 h1]
    by_cases h2 : i = pA
    · subst h2; rw [swapf_left, fix0, nx_live (live_old lpA), S.next_pA]
    by_cases h0 : i = n0
    · subst h0; rw [swapf_right, swapf_left, nx_live lpB, S.npB, nx_live live_n0, S.next_n0]
    rw [swapf_other _ h2 h0, swapf_other _ h2 h3]
    by_cases hl : m.heLive i
    · rw [nx_live hl, nx_live (live_old hl), S.next_o i h0 h1 h2 h3]
    · rw [nx_dead hl, nx_dead]
      intro h; rcases (hlive i).1 h with h | h | h
      · exact h0 h
      · exact h1 h
      · exact hl h
  have per' : Per m'.nx := by rw [nxeq]; exact per2.swapf _ _
  have oAB : Orb m.nx pB pA := by
    rw [← hv.face_nx_iff lpB lpA]
    have h1 := hv.face_next lpA; have h2 := hv.face_next lpB
    rw [S.npA] at h1; rw [S.npB] at h2
    rw [← h1, ← h2, S.fAB]
  have split : ¬ Orb (swapf m.nx pA pB) A B := by
    intro o
    apply swapf_split pne oAB
    have s1 : Orb (swapf m.nx pA pB) pA B := ⟨1, by simp [nx_live lpB, S.npB]⟩
    have s2 : Orb (swapf m.nx pA pB) pB A := ⟨1, by simp [nx_live lpA, S.npA]⟩
    exact s1.trans ((o.symm per1).trans (s2.symm per1))
  refine ⟨lt, tn0, tn1, n01, dn0, dn1, pne, nextNe, hlive, htl, hnl, nxeq, per', split, ?_⟩
  intro i j hi hj
  rw [nxeq, swapf_insert per2 fix1 (lt lpB).2 (lt hi).2 (lt hj).2,
    swapf_insert per1 fix0 (lt lpA).1 (lt hi).1 (lt hj).1]

open Classical in
/-- Face labels after `connectVertices`. -/
theorem conn_face (hv : m.Valid) (S : ConnSpec m m' A B pA pB n0 n1 fA fB) {i : ℕ} (hi : m.heLive i) :
    m'.heFace i = if Orb (swapf m.nx pA pB) A i then fB else m.heFace i := by

  have F := connFacts hv S
  have key : Orb m'.heNext A i ↔ Orb (swapf m.nx pA pB) A i := by
    rw [← F.orbF S.lA hi]
    exact Orb.congr (fun i => m'.heLive i) ((F.hlive _).2 (Or.inr (Or.inr S.lA))) F.hnl
      (fun _ hz => (nx_live hz).symm)
  split_ifs with h
  · exact S.f_new i (F.lt hi).1 (F.lt hi).2 (key.2 h)
  · exact S.f_o i (F.lt hi).1 (F.lt hi).2 (fun h' => h (key.1 h'))

theorem conn_valid (hv : m.Valid) (S : ConnSpec m m' A B pA pB n0 n1 fA fB) : m'.Valid := by
  classical
  have F := connFacts hv S
  obtain ⟨lt, tn0, tn1, n01, dn0, dn1, pne, nextNe, hlive, htl, hnl, nxeq, per', split, orbF⟩ := F
  have lA := S.lA; have lB := S.lB; have lpA := S.lpA; have lpB := S.lpB
  have capc := S.c_heCap
  have fcap := hv.f_cap
  have live_old : ∀ {i}, m.heLive i → m'.heLive i := fun h => (hlive _).2 (Or.inr (Or.inr h))
  have live_n0 : m'.heLive n0 := (hlive _).2 (Or.inl rfl)
  have live_n1 : m'.heLive n1 := (hlive _).2 (Or.inr (Or.inl rfl))
  have per1 := hv.per_nx.swapf pA pB
  have face_old := fun {i} (hi : m.heLive i) => conn_face hv S hi
  have hfA : fA < m.nFFill := by rw [S.hfA]; exact Valid.face_lt S.iA
  have fBne : ∀ {i}, m.heLive i → m.heFace i ≠ fB := by
    intro i hi
    rw [S.hfB]
    by_cases e : m.ext i
    · have := hv.face_ext_region hi e; have := S.c_space; omega
    · have := Valid.face_lt e; omega
  have pBA : Orb (swapf m.nx pA pB) pB A := ⟨1, by simp [nx_live lpA, S.npA]⟩
  have pAB : Orb (swapf m.nx pA pB) pA B := ⟨1, by simp [nx_live lpB, S.npB]⟩
  have oAB : Orb m.nx pA pB := by
    rw [← hv.face_nx_iff lpA lpB]
    have h1 := hv.face_next lpA; have h2 := hv.face_next lpB
    rw [S.npA] at h1; rw [S.npB] at h2
    rw [← h1, ← h2, S.fAB]
  have sp := fun x y => swapf_split_iff hv.per_nx pne oAB x y
  -- representative
  let ρ : ℕ → ℕ := fun i => if i = n0 then B else if i = n1 then A else i
  have hρ : ∀ i, m'.heLive i → m.heLive (ρ i) ∧ Orb m'.nx i (ρ i) ∧
      m'.heFace i = (if Orb (swapf m.nx pA pB) A (ρ i) then fB else m.heFace (ρ i)) := by
    intro i hi
    simp only [ρ]
    by_cases h0 : i = n0
    · subst h0
      rw [if_pos rfl]
      refine ⟨lB, ⟨1, by rw [Function.iterate_one, nx_live live_n0, S.next_n0]⟩, ?_⟩
      rw [if_neg split, S.f_n0, S.fAB, S.hfA]
    rw [if_neg h0]
    by_cases h1 : i = n1
    · subst h1
      rw [if_pos rfl]
      refine ⟨lA, ⟨1, by rw [Function.iterate_one, nx_live live_n1, S.next_n1]⟩, ?_⟩
      rw [if_pos (Orb.refl _ _), S.f_n1]
    rw [if_neg h1]
    rcases (hlive i).1 hi with h | h | h
    · exact absurd h h0
    · exact absurd h h1
    · exact ⟨h, Orb.refl _ _, face_old h⟩
  have core : ∀ x y, m.heLive x → m.heLive y →
      ((if Orb (swapf m.nx pA pB) A x then fB else m.heFace x) =
       (if Orb (swapf m.nx pA pB) A y then fB else m.heFace y) ↔ Orb (swapf m.nx pA pB) x y) := by
    intro x y hx hy
    by_cases cx : Orb (swapf m.nx pA pB) A x <;> by_cases cy : Orb (swapf m.nx pA pB) A y
    · rw [if_pos cx, if_pos cy]; exact iff_of_true rfl ((cx.symm per1).trans cy)
    · rw [if_pos cx, if_neg cy]
      exact iff_of_false (fBne hy).symm (fun o => cy (cx.trans o))
    · rw [if_neg cx, if_pos cy]
      exact iff_of_false (fBne hx) (fun o => cx (cy.trans (o.symm per1)))
    · rw [if_neg cx, if_neg cy, hv.face_nx_iff hx hy, sp x y]
      constructor
      · rintro (h | ⟨h1, h2⟩)
        · exact h
        · have g : ∀ {z}, ¬ Orb (swapf m.nx pA pB) A z →
              (Orb (swapf m.nx pA pB) pA z ∨ Orb (swapf m.nx pA pB) pB z) → Orb (swapf m.nx pA pB) pA z := by
            rintro z nz (h | h)
            · exact h
            · exact absurd ((pBA.symm per1).trans h) nz
          exact ((g cx h1).symm per1).trans (g cy h2)
      · exact Or.inl
  have fconn : ∀ i j, m'.heLive i → m'.heLive j → (m'.heFace i = m'.heFace j ↔ Orb m'.nx i j) := by
    intro i j hi hj
    obtain ⟨l1, o1, e1⟩ := hρ i hi
    obtain ⟨l2, o2, e2⟩ := hρ j hj
    rw [e1, e2, core _ _ l1 l2, ← orbF l1 l2]
    constructor
    · intro o; exact o1.trans (o.trans (o2.symm per'))
    · intro o; exact (o1.symm per').trans (o.trans o2)
  -- vertices
  have e2 : ∀ k, m.vx k = m.nx (twin k) := fun _ => rfl
  have dvx0 : m.vx n0 = n1 := by rw [e2, tn0, nx_dead dn1]
  have dvx1 : m.vx n1 = n0 := by rw [e2, tn1, nx_dead dn0]
  have tt : ∀ {i}, m.heLive i → twin i ≠ n0 ∧ twin i ≠ n1 := fun hi => lt (hv.twin_live _ hi)
  have q1 : swapf m.vx n0 n1 n0 = n0 := by rw [swapf_left, dvx1]
  have q2 : swapf (swapf m.vx n0 n1) (twin pA) n0 n1 = n1 := by
    rw [swapf_other _ (tt lpA).2.symm n01.symm, swapf_right, dvx0]
  have tpne : twin pA ≠ twin pB := fun e => pne (twin_inj e)
  have vxeq : m'.vx = swapf (swapf (swapf m.vx n0 n1) (twin pA) n0) (twin pB) n1 := by
    funext i
    have e1 : m'.vx i = m'.nx (twin i) := rfl
    rw [e1]
    by_cases h3 : i = twin pB
    · subst h3; rw [swapf_left, q2, twin_twin, nx_live (live_old lpB), S.next_pB]
    by_cases h1 : i = n1
    · subst h1
      rw [swapf_right, swapf_other _ tpne.symm (tt lpB).1, swapf_other _ (tt lpB).1 (tt lpB).2, e2, twin_twin,
        nx_live lpB, S.npB, tn1, nx_live live_n0, S.next_n0]
    rw [swapf_other _ h3 h1]
    by_cases h2 : i = twin pA
    · subst h2; rw [swapf_left, q1, twin_twin, nx_live (live_old lpA), S.next_pA]
    by_cases h0 : i = n0
    · subst h0
      rw [swapf_right, swapf_other _ (tt lpA).1 (tt lpA).2, e2, twin_twin, nx_live lpA, S.npA, tn0,
        nx_live live_n1, S.next_n1]
    rw [swapf_other _ h2 h0, swapf_other _ h0 h1, e2]
    have t0 : twin i ≠ n0 := by intro e; apply h1; rw [← tn0, ← e, twin_twin]
    have t1 : twin i ≠ n1 := by intro e; apply h0; rw [← tn1, ← e, twin_twin]
    have tb : twin i ≠ pB := by intro e; apply h3; rw [← e, twin_twin]
    have ta : twin i ≠ pA := by intro e; apply h2; rw [← e, twin_twin]
    by_cases hl : m.heLive (twin i)
    · rw [nx_live hl, nx_live (live_old hl), S.next_o _ t0 t1 ta tb]
    · rw [nx_dead hl, nx_dead]
      intro h; rcases (hlive _).1 h with h | h | h
      · exact t0 h
      · exact t1 h
      · exact hl h
  have vp1 := hv.per_vx.swapf n0 n1
  have vp2 := vp1.swapf (twin pA) n0
  have vper' : Per m'.vx := by rw [vxeq]; exact vp2.swapf _ _
  have vorb : ∀ {i j}, m.heLive i → m.heLive j → (Orb m'.vx i j ↔ Orb m.vx i j) := by
    intro i j hi hj
    rw [vxeq, swapf_insert vp2 q2 (tt lpB).2 (lt hi).2 (lt hj).2,
      swapf_insert vp1 q1 (tt lpA).1 (lt hi).1 (lt hj).1]
    -- making the pair fixed does not matter to the others
    have := swapf_remove hv.per_vx dvx1 n01.symm (y := i) (z := j) (lt hi).1 (lt hj).1
    rw [swapf_comm] at this; exact this
  let ν : ℕ → ℕ := fun i => if i = n0 then A else if i = n1 then B else i
  have hν : ∀ i, m'.heLive i → m.heLive (ν i) ∧ Orb m'.vx i (ν i) ∧ m'.heVertex i = m.heVertex (ν i) := by
    intro i hi
    simp only [ν]
    by_cases h0 : i = n0
    · subst h0
      rw [if_pos rfl]
      exact ⟨lA, ⟨1, by show m'.nx (twin _) = _; rw [tn0, nx_live live_n1, S.next_n1]⟩, S.v_n0⟩
    rw [if_neg h0]
    by_cases h1 : i = n1
    · subst h1
      rw [if_pos rfl]
      exact ⟨lB, ⟨1, by show m'.nx (twin _) = _; rw [tn1, nx_live live_n0, S.next_n0]⟩, S.v_n1⟩
    rw [if_neg h1]
    rcases (hlive i).1 hi with h | h | h
    · exact absurd h h0
    · exact absurd h h1
    · exact ⟨h, Orb.refl _ _, S.v_o i h0 h1⟩
  have vconn : ∀ i j, m'.heLive i → m'.heLive j → (m'.heVertex i = m'.heVertex j ↔ Orb m'.vx i j) := by
    intro i j hi hj
    obtain ⟨l1, o1, e1⟩ := hν i hi
    obtain ⟨l2, o2, e2⟩ := hν j hj
    rw [e1, e2, hv.vertex_vx_iff l1 l2, ← vorb l1 l2]
    constructor
    · intro o; exact o1.trans (o.trans (o2.symm vper'))
    · intro o; exact (o1.symm vper').trans (o.trans o2)
  -- elements
  have vlive : ∀ v, m'.vLive v ↔ m.vLive v := by intro v; unfold vLive; rw [S.c_vFill, S.vh]
  have n0ne : n0 ≠ INV := by rw [S.hn0]; omega
  have n1ne : n1 ≠ INV := by rw [S.hn1]; omega
  have fAB : fA ≠ fB := by rw [S.hfA]; exact fBne lA
  have fAlive := hv.face_live _ lA
  rw [← S.hfA] at fAlive
  have fhne : ∀ f, f ≠ fB → (m'.fHalfedge f ≠ INV ↔ m.fHalfedge f ≠ INV) := by
    intro f hne
    rw [S.fh, if_neg hne]
    split_ifs with h
    · rw [h]; exact iff_of_true n0ne fAlive.2
    · rfl
  have fhB : m'.fHalfedge fB ≠ INV := by rw [S.fh, if_pos rfl]; exact n1ne
  have flive_old : ∀ {f}, m.fLive f → f ≠ fB ∧ m'.fLive f := by
    intro f hf
    have hne : f ≠ fB := by
      rw [S.hfB]; rintro rfl
      rcases hf.1 with h | ⟨h, _⟩
      · omega
      · have := S.c_space; omega
    refine ⟨hne, ?_, (fhne f hne).2 hf.2⟩
    rw [S.c_fFill, S.c_fCap, S.c_blFill]
    rcases hf.1 with h | h
    · left; omega
    · right; exact h
  have flive_new : m'.fLive fB := ⟨by rw [S.c_fFill, S.hfB]; left; omega, fhB⟩
  have flive_inv : ∀ {f}, m'.fLive f → f = fB ∨ m.fLive f := by
    intro f hf
    by_cases e : f = fB
    · exact Or.inl e
    · refine Or.inr ⟨?_, (fhne f e).1 hf.2⟩
      have := hf.1; rw [S.c_fFill, S.c_fCap, S.c_blFill] at this
      have := S.hfB
      rcases hf.1 with h | h
      · rw [S.c_fFill] at h; left; omega
      · rw [S.c_fCap, S.c_blFill] at h; right; exact h
  have extB : ¬ m.ext B := by unfold ext; rw [S.fAB]; exact S.iA
  have orbA_face : ∀ {i}, m.heLive i → Orb (swapf m.nx pA pB) A i → m.heFace i = fA := by
    intro i hi o
    rw [S.hfA, hv.face_nx_iff hi lA, sp i A]
    exact Or.inl (o.symm per1)
  have ext_old : ∀ {i}, m.heLive i → (m'.ext i ↔ m.ext i) := by
    intro i hi
    unfold ext
    rw [face_old hi, S.c_fFill]
    split_ifs with h
    · rw [orbA_face hi h, S.hfB]; omega
    · constructor
      · intro h; omega
      · intro h
        have := hv.face_ext_region hi h
        have := S.c_space; omega
  have ext_n0 : ¬ m'.ext n0 := by unfold ext; rw [S.f_n0, S.c_fFill]; omega
  have ext_n1 : ¬ m'.ext n1 := by unfold ext; rw [S.f_n1, S.c_fFill, S.hfB]; omega
  have ext_inv : ∀ {i}, m'.heLive i → m'.ext i → m.heLive i ∧ m.ext i := by
    intro i hi ei
    rcases (hlive i).1 hi with h | h | h
    · rw [h] at ei; exact absurd ei ext_n0
    · rw [h] at ei; exact absurd ei ext_n1
    · exact ⟨h, (ext_old h).1 ei⟩
  constructor
  · rw [S.c_heFill, S.c_eFill, hv.he_fill]; omega
  · rw [S.c_heFill]; exact S.c_heCap
  · exact S.c_eCap
  · rw [S.c_vFill, S.c_vCap]; exact hv.v_cap
  · rw [S.c_fFill, S.c_fCap, S.c_blFill]; exact ⟨S.c_space, fcap.2⟩
  · exact htl
  · exact hnl
  · intro i hi
    rw [vlive, (hν i hi).2.2]; exact hv.vertex_live _ (hν i hi).1
  · intro i hi
    rw [(hρ i hi).2.2]
    split_ifs
    · exact flive_new
    · exact (flive_old (hv.face_live _ (hρ i hi).1)).2
  · exact face_iff_of' hnl fconn
  · exact vertex_iff_of htl hnl vconn
  · intro v hvl
    rw [vlive] at hvl
    obtain ⟨l0, e0⟩ := hv.v_he v hvl
    rw [S.vh]
    exact ⟨live_old l0, by rw [S.v_o _ (lt l0).1 (lt l0).2, e0]⟩
  · intro f hf
    rw [S.fh]
    by_cases h1 : f = fB
    · subst h1; rw [if_pos rfl]; exact ⟨live_n1, S.f_n1⟩
    rw [if_neg h1]
    have hf0 := (flive_inv hf).resolve_left h1
    obtain ⟨l0, e0⟩ := hv.f_he f hf0
    by_cases h2 : f = fA
    · subst h2; rw [if_pos rfl]; exact ⟨live_n0, S.f_n0⟩
    rw [if_neg h2]
    refine ⟨live_old l0, ?_⟩
    rw [face_old l0]
    split_ifs with h
    · exact absurd ((orbA_face l0 h).symm.trans e0).symm h2
    · exact e0
  · intro i hi
    by_cases h0 : i = n0
    · subst h0; rw [S.next_n0]; exact (lt lB).1
    by_cases h1 : i = n1
    · subst h1; rw [S.next_n1]; exact (lt lA).2
    by_cases h2 : i = pA
    · subst h2; rw [S.next_pA]; exact (lt lpA).1.symm
    by_cases h3 : i = pB
    · subst h3; rw [S.next_pB]; exact (lt lpB).2.symm
    rw [S.next_o i h0 h1 h2 h3]
    rcases (hlive i).1 hi with h | h | h
    · exact absurd h h0
    · exact absurd h h1
    · exact hv.deg_two i h
  · intro e he
    rcases (hlive _).1 he with h | h | h
    · rw [h]; exact ext_n0
    · rw [h]; exact ext_n1
    · rw [ext_old h]; exact hv.edge_int e h
  · intro i j hi hj ei ej hij
    obtain ⟨l1, x1⟩ := ext_inv hi ei
    obtain ⟨l2, x2⟩ := ext_inv hj ej
    rw [S.v_o i (lt l1).1 (lt l1).2, S.v_o j (lt l2).1 (lt l2).2] at hij
    exact hv.bdy_unique i j l1 l2 x1 x2 hij
  · intro i hi ei
    obtain ⟨l1, x1⟩ := ext_inv hi ei
    rw [S.v_o i (lt l1).1 (lt l1).2, S.vh]
    have l0 := (hv.v_he _ (hv.vertex_live i l1)).1
    rw [ext_old (hv.twin_live _ l0)]
    exact hv.bdy_first i l1 x1
  · have hc : Nat.count (fun i => m'.heNext i ≠ INV) m.nHeFill =
        Nat.count (fun i => m.heNext i ≠ INV) m.nHeFill := by
      refine count_congr fun i hi => ?_
      rw [nextNe]; have := S.hn0; have := S.hn1
      constructor
      · rintro (h | h | h)
        · omega
        · omega
        · exact h
      · intro h; exact Or.inr (Or.inr h)
    rw [S.c_he, S.c_heFill, Nat.count_succ, Nat.count_succ, hc, hv.cnt_he, ← S.hn0,
      show n0 + 1 = n1 by rw [S.hn0, S.hn1], if_pos live_n0.2, if_pos live_n1.2]
  · have hc : Nat.count (fun i => m'.heNext i ≠ INV ∧ m'.heFace i < m'.nFFill) m.nHeFill =
        Nat.count (fun i => m.heNext i ≠ INV ∧ m.heFace i < m.nFFill) m.nHeFill := by
      refine count_congr fun i hi => ?_
      have := S.hn0; have := S.hn1
      rw [nextNe]
      have g : m.heNext i ≠ INV → (m'.heFace i < m'.nFFill ↔ m.heFace i < m.nFFill) := by
        intro hn
        have := ext_old ⟨hi, hn⟩
        unfold ext at this; omega
      constructor
      · rintro ⟨h | h | h, h'⟩
        · omega
        · omega
        · exact ⟨h, (g h).1 h'⟩
      · rintro ⟨h, h'⟩; exact ⟨Or.inr (Or.inr h), (g h).2 h'⟩
    have i0 : m'.heFace n0 < m'.nFFill := by have := ext_n0; unfold ext at this; omega
    have i1 : m'.heFace n1 < m'.nFFill := by have := ext_n1; unfold ext at this; omega
    rw [S.c_int, S.c_heFill, Nat.count_succ, Nat.count_succ, hc, hv.cnt_int, ← S.hn0,
      show n0 + 1 = n1 by rw [S.hn0, S.hn1], if_pos ⟨live_n0.2, i0⟩, if_pos ⟨live_n1.2, i1⟩]
  · rw [S.c_e, S.c_eFill, Nat.count_succ, hv.cnt_e,
      show eHalfedge m.nEFill = n0 by unfold eHalfedge; rw [S.hn0, hv.he_fill], if_pos live_n0.2]
    congr 1
    refine count_congr fun i hi => ?_
    rw [nextNe]; have := S.hn0; have := S.hn1; have := hv.he_fill
    unfold eHalfedge
    constructor
    · intro h; exact Or.inr (Or.inr h)
    · rintro (h | h | h)
      · omega
      · omega
      · exact h
  · rw [S.c_v, S.c_vFill, S.vh]; exact hv.cnt_v
  · rw [S.c_f, S.c_fFill, Nat.count_succ, hv.cnt_f, ← S.hfB, if_pos fhB]
    congr 1
    refine count_congr fun i hi => ?_
    rw [fhne i (by omega)]
  · rw [S.c_bl, S.c_blFill]; exact hv.cnt_bl
  · intro f h1 h2
    rw [S.c_fCap, S.c_blFill] at h1; rw [S.c_fCap] at h2
    have := S.c_space
    rw [fhne f (by rw [S.hfB]; omega)]; exact hv.bl_live f h1 h2

end

/-- The mesh on which `getNewFace` works: storage doubled if there is no free slot. -/
def spare (m : Mesh) : Mesh := if m.nFFill + m.nBL < m.nFCap then m else m.expandFaceStorage

theorem spare_valid {m : Mesh} (hv : m.Valid) (h : m.spare.nFCap < INV) : m.spare.Valid := by
  unfold spare at *
  split_ifs with c
  · exact hv
  · rw [if_neg c] at h; exact expand_valid hv h

@[simp] theorem spare_heLive {m : Mesh} {i : ℕ} : m.spare.heLive i ↔ m.heLive i := by
  unfold spare; split_ifs <;> exact Iff.rfl
@[simp] theorem spare_heNext {m : Mesh} : m.spare.heNext = m.heNext := by
  unfold spare; split_ifs <;> rfl
@[simp] theorem spare_heVertex {m : Mesh} : m.spare.heVertex = m.heVertex := by
  unfold spare; split_ifs <;> rfl
@[simp] theorem spare_vHalfedge {m : Mesh} : m.spare.vHalfedge = m.vHalfedge := by
  unfold spare; split_ifs <;> rfl
@[simp] theorem spare_nHeFill {m : Mesh} : m.spare.nHeFill = m.nHeFill := by
  unfold spare; split_ifs <;> rfl
@[simp] theorem spare_nHeCap {m : Mesh} : m.spare.nHeCap = m.nHeCap := by
  unfold spare; split_ifs <;> rfl
@[simp] theorem spare_nECap {m : Mesh} : m.spare.nECap = m.nECap := by
  unfold spare; split_ifs <;> rfl
@[simp] theorem spare_nEFill {m : Mesh} : m.spare.nEFill = m.nEFill := by
  unfold spare; split_ifs <;> rfl
@[simp] theorem spare_nVFill {m : Mesh} : m.spare.nVFill = m.nVFill := by
  unfold spare; split_ifs <;> rfl
@[simp] theorem spare_nVCap {m : Mesh} : m.spare.nVCap = m.nVCap := by
  unfold spare; split_ifs <;> rfl
@[simp] theorem spare_nFFill {m : Mesh} : m.spare.nFFill = m.nFFill := by
  unfold spare; split_ifs <;> rfl
@[simp] theorem spare_nBLFill {m : Mesh} : m.spare.nBLFill = m.nBLFill := by
  unfold spare; split_ifs <;> rfl
@[simp] theorem spare_nHe {m : Mesh} : m.spare.nHe = m.nHe := by
  unfold spare; split_ifs <;> rfl
@[simp] theorem spare_nInt {m : Mesh} : m.spare.nInt = m.nInt := by
  unfold spare; split_ifs <;> rfl
@[simp] theorem spare_nE {m : Mesh} : m.spare.nE = m.nE := by
  unfold spare; split_ifs <;> rfl
@[simp] theorem spare_nV {m : Mesh} : m.spare.nV = m.nV := by
  unfold spare; split_ifs <;> rfl
@[simp] theorem spare_nF {m : Mesh} : m.spare.nF = m.nF := by
  unfold spare; split_ifs <;> rfl
@[simp] theorem spare_nBL {m : Mesh} : m.spare.nBL = m.nBL := by
  unfold spare; split_ifs <;> rfl

/-- Interior face references do not move. -/
theorem spare_heFace_int {m : Mesh} {i : ℕ} (hi : ¬ m.ext i) : m.spare.heFace i = m.heFace i := by
  unfold ext at hi
  unfold spare; split_ifs
  · rfl
  · unfold expandFaceStorage; simp [hi]

theorem spare_ext {m : Mesh} {i : ℕ} : m.spare.ext i ↔ m.ext i := by
  unfold ext
  rw [spare_nFFill]
  unfold spare; split_ifs
  · rfl
  · unfold expandFaceStorage; simp only
    split_ifs <;> omega

theorem spare_face_eq_iff {m : Mesh} {i j : ℕ} (hi : m.heLive i) (hj : m.heLive j) :
    m.spare.heFace i = m.spare.heFace j ↔ m.heFace i = m.heFace j := by
  unfold spare; split_ifs
  · rfl
  · rw [expand_heFace hi, expand_heFace hj]
    exact ⟨faceShift_inj, fun h => by rw [h]⟩

/-- `getNewFace` after `getNewEdgeTriple`, in terms of `spare`. -/
theorem getNewFace_ok {m : Mesh} (hcap : m.nFFill + m.nBLFill ≤ m.nFCap) (hbl : m.nBL = m.nBLFill)
    (hpos : 0 < m.nFCap) (hlt : m.nFCap < INV) :
    (m.getNewFace = .error .oom ∧ m.nearLimit 0) ∨
    (m.getNewFace = .ok ({ m.spare with nF := m.nF + 1, nFFill := m.nFFill + 1 }, m.nFFill) ∧
      m.spare.nFCap < INV ∧ m.nFFill + 1 + m.nBLFill ≤ m.spare.nFCap) := by
  have e : m.getNewFace = (if INV ≤ m.spare.nFCap then .error .oom
    else if m.spare.nFCap - m.spare.nBLFill ≤ m.spare.nFFill then .error .ub
    else .ok ({ m.spare with nF := m.spare.nF + 1, nFFill := m.spare.nFFill + 1 }, m.spare.nFFill)) := rfl
  rw [e]
  by_cases h1 : INV ≤ m.spare.nFCap
  · left; rw [if_pos h1]; refine ⟨rfl, ?_⟩
    unfold spare at h1; split_ifs at h1 with h
    · omega
    · have h1' : INV ≤ m.nFCap * 2 := h1
      unfold nearLimit; omega
  right
  have key : m.nFFill + 1 + m.nBLFill ≤ m.spare.nFCap := by
    unfold spare; split_ifs with h
    · omega
    · show _ ≤ m.nFCap * 2; omega
  rw [if_neg h1, if_neg (by rw [spare_nBLFill, spare_nFFill]; omega)]
  refine ⟨by simp, by omega, key⟩

theorem conn_spec {m : Mesh} (hv : m.Valid) {A B : ℕ} (lA : m.heLive A) (lB : m.heLive B)
    (hf : m.heFace A = m.heFace B) (hint : ¬ m.ext A) (hAB : A ≠ B) (h1 : m.heNext A ≠ B)
    (h2 : m.heNext B ≠ A) :
    (m.connectVertices A B = .error .oom ∧ m.nearLimit 1) ∨
    ∃ m' pA pB, m.connectVertices A B = .ok (m', m.nHeFill) ∧ m.spare.Valid ∧
      ConnSpec m.spare m' A B pA pB m.nHeFill (m.nHeFill + 1) (m.heFace A) m.nFFill := by
  classical
  obtain ⟨pA, hpA, lpA, npA⟩ := hv.prevOrbitVertex_ok lA
  obtain ⟨pB, hpB, lpB, npB⟩ := hv.prevOrbitVertex_ok lB
  have ApB : A ≠ pB := by rintro rfl; exact h1 npB
  have pAB : pA ≠ B := by rintro rfl; exact h2 npA
  unfold connectVertices
  rw [hpA, hpB]
  simp only
  rw [if_neg (not_not.2 hf), if_neg (not_not.2 ⟨ApB, pAB⟩), if_neg hAB]
  rcases getNewEdgeTriple_ok (m := m) hv.he_fill hv.he_cap.1 hv.e_cap hv.he_cap.2 false with
    ⟨h, lim⟩ | ⟨hcap, ecap, h, ha, hb, hc⟩
  · left; rw [h]; exact ⟨rfl, lim.mono (by omega) (by omega) (by omega)⟩
  rw [h]; simp only [Bool.false_eq_true, if_false]
  set m1 : Mesh := { m with
    nHeCap := hcap, nECap := ecap, nHeFill := m.nHeFill + 2, nHe := m.nHe + 2,
    nInt := m.nInt + 2, nEFill := m.nEFill + 1, nE := m.nE + 1 } with hm1
  have hfl := Valid.face_lt hint
  rcases getNewFace_ok (m := m1) hv.f_cap.1 hv.cnt_bl (by have := hv.f_cap; show 0 < m.nFCap; omega) hv.f_cap.2 with
    ⟨g, lim⟩ | ⟨g, g1, g2⟩
  · left; rw [g]; exact ⟨rfl, lim.mono (by simp only [hm1]; omega) (by simp only [hm1]; omega) (by simp only [hm1]; omega)⟩
  right
  rw [g]; simp only
  have e1 : m1.spare.nFCap = m.spare.nFCap := by unfold spare; simp only [hm1]; split_ifs <;> rfl
  rw [e1] at g1 g2
  have hsv := spare_valid hv g1
  have heven : twin m.nHeFill = m.nHeFill + 1 := by rw [hv.he_fill, twin_two_mul]
  have ff : ∀ i, i ≠ m.nHeFill → i ≠ m.nHeFill + 1 → m1.spare.heFace i = m.spare.heFace i := by
    intro i hi0 hi1
    unfold spare; simp only [hm1]; split_ifs with c
    · rfl
    · unfold expandFaceStorage; simp only
      have : i < m.nHeFill + 2 ↔ i < m.nHeFill := by omega
      simp only [this]
  have fh : m1.spare.fHalfedge = m.spare.fHalfedge := by
    unfold spare; simp only [hm1]; split_ifs <;> rfl
  rw [heven]
  set n0 := m.nHeFill with hn0
  set n1 := m.nHeFill + 1 with hn1
  set next : ℕ → ℕ := upd (upd (upd (upd m1.spare.heNext n0 B) n1 A) pA n0) pB n1 with hnext
  set face0 := upd (upd m1.spare.heFace n0 (m.heFace A)) n1 m1.nFFill with hface0
  have ltn : ∀ {i}, m.heLive i → i ≠ n0 ∧ i ≠ n1 := by
    intro i hi; have := hi.1; constructor <;> omega
  have pne : pA ≠ pB := by rintro rfl; exact hAB (by rw [← npA, npB])
  have n01 : n0 ≠ n1 := by omega
  -- the intended result
  let face' : ℕ → ℕ := fun i => if i = n0 then m.heFace A else if i = n1 then m.nFFill else
    if Orb next A i then m.nFFill else m.spare.heFace i
  let m' : Mesh := { m1.spare with
    nF := m1.nF + 1, nFFill := m1.nFFill + 1,
    fHalfedge := upd (upd m1.spare.fHalfedge (m.heFace A) n0) m1.nFFill n1,
    heNext := next,
    heVertex := upd (upd m1.spare.heVertex n0 (m.heVertex A)) n1 (m.heVertex B),
    heFace := face' }
  have S : ConnSpec m.spare m' A B pA pB n0 n1 (m.heFace A) m.nFFill := by
    obtain ⟨qA0, qA1⟩ := ltn lpA
    obtain ⟨qB0, qB1⟩ := ltn lpB
    constructor
    case lA => exact spare_heLive.2 lA
    case lB => exact spare_heLive.2 lB
    case lpA => exact spare_heLive.2 lpA
    case lpB => exact spare_heLive.2 lpB
    case npA => simpa using npA
    case npB => simpa using npB
    case fAB => exact ((spare_face_eq_iff lA lB).2 hf).symm
    case hfA => exact (spare_heFace_int hint).symm
    case hfB => simp
    case iA => rw [spare_ext]; exact hint
    case AB => exact hAB
    case ApB => exact ApB
    case pAB => exact pAB
    case hn0 => simp [hn0]
    case hn1 => simp [hn1]
    case f_n0 => simp [m', face']
    case f_n1 => simp [m', face', n01.symm]
    case f_new => intro i i0 i1 o; simp only [m', face']; rw [if_neg i0, if_neg i1, if_pos o]
    case f_o => intro i i0 i1 o; simp only [m', face']; rw [if_neg i0, if_neg i1, if_neg o]
    case vh => simp [m', m1]
    case fh => intro f; simp only [m', upd_apply, fh]; rfl
    case c_heCap => simp only [m', spare_nHeCap, spare_nHeFill]; exact ⟨ha, hb⟩
    case c_eCap => simp only [m', spare_nHeCap, spare_nECap]; exact hc
    case c_fCap => simp only [m', e1]
    case c_space => simpa using g2
    case next_o =>
      intro i i0 i1 i2 i3; simp only [m', hnext, upd_apply]; rw [if_neg i3, if_neg i2, if_neg i1, if_neg i0]; simp [hm1]
    case v_o =>
      intro i i0 i1; simp only [m', upd_apply]; rw [if_neg i1, if_neg i0]; simp [hm1]
    all_goals first
      | (simp only [m', hnext, upd_apply]; simp [hm1, qA0, qA1, qB0, qB1, qA0.symm, qA1.symm, qB0.symm, qB1.symm, n01, n01.symm, pne, pne.symm]; done)
      | (intros; simp only [m', hnext, upd_apply]; simp [hm1, *]; done)
  have F := connFacts hsv S
  have lA' : m'.heLive A := (F.hlive _).2 (Or.inr (Or.inr S.lA))
  have ln1 : m'.heLive n1 := (F.hlive _).2 (Or.inr (Or.inl rfl))
  have hnx : ∀ {i j}, m'.heLive i → (Orb next i j ↔ Orb m'.nx i j) := fun {i j} hi =>
    Orb.congr (fun i => m'.heLive i) hi F.hnl (fun _ hz => (nx_live hz).symm)
  have o1 : Orb next A n1 := by
    rw [hnx lA']
    refine Orb.symm F.per' ⟨1, ?_⟩
    rw [Function.iterate_one, nx_live ln1]; exact S.next_n1
  have hb' : ∀ z, Orb next A z → z < m1.spare.nHeFill := by
    intro z hz
    have : m'.heLive z := hz.mem (fun i => m'.heLive i) lA' F.hnl
    exact this.1
  obtain ⟨k, hk, hit, hmin⟩ := first_hit o1 hb'
  obtain ⟨arr, harr, hpt⟩ := relabel_ok (val := m1.nFFill) (arr := face0) hk hit hmin
  have nA0 : ¬ Orb next A n0 := by
    intro o
    have l0 : m'.heLive n0 := (F.hlive _).2 (Or.inl rfl)
    have o2 : Orb next A B := o.trans ⟨1, S.next_n0⟩
    exact F.split ((F.orbF S.lA S.lB).1 ((hnx lA').1 o2))
  have harr' : arr = face' := by
    funext i
    rw [hpt]
    have key : (∃ j < k, next^[j] A = i) ↔ (Orb next A i ∧ i ≠ n1) := by
      constructor
      · rintro ⟨j, hj, rfl⟩; exact ⟨⟨j, rfl⟩, hmin j hj⟩
      · rintro ⟨o, hne⟩
        have hper : next^[k+1] A = A := by rw [Function.iterate_succ_apply', hit]; exact S.next_n1
        have := (orbit_range_mem hper).2 o
        rw [List.mem_map] at this
        obtain ⟨j, hj, rfl⟩ := this
        rw [List.mem_range] at hj
        refine ⟨j, ?_, rfl⟩
        rcases Nat.lt_succ_iff_lt_or_eq.1 hj with h | h
        · exact h
        · subst h; exact absurd hit hne
    by_cases i0 : i = n0
    · rw [if_neg (by rw [key, i0]; exact fun h => nA0 h.1)]
      simp [face', i0, hface0, n01, upd_apply]
    by_cases i1 : i = n1
    · rw [if_neg (by rw [key, i1]; exact fun h => h.2 rfl)]
      simp [face', i1, hface0, n01.symm, upd_apply, hm1]
    by_cases o : Orb next A i
    · rw [if_pos (key.2 ⟨o, i1⟩)]; simp [face', i0, i1, o, hm1]
    · rw [if_neg (fun h => o (key.1 h).1)]
      simp [face', i0, i1, o, hface0, upd_apply, ff i i0 i1]
  refine ⟨m', pA, pB, ?_, hsv, S⟩
  rw [harr]
  simp only
  rw [harr']

end Mesh
end GC
