import Verif.MeshSeparateEdge
import Verif.Props.Switch

/-! # Property C11: separateEdge -/

namespace GC
namespace Mesh

/-- The vertex `v` is on the boundary: an exterior halfedge leaves it. -/
def OnBdy (m : Mesh) (v : ℕ) : Prop := ∃ i, m.heLive i ∧ m.heVertex i = v ∧ m.ext i

/-- What `separateEdge(e)` is to do, for the mesh `m'` with the counts put right: `m'` is a valid mesh; `ρ` gives
the new place of every halfedge of an interior face, with the same face and successor; only the two halfedges of
`e` may get a new place, and these are the returned ones; they now belong to different edges, which are
boundary edges; the origins are the old ones, except that at a boundary endpoint of `e` some corners get the
origin `m.nVFill`, a new vertex. -/
structure Separated (m m' : Mesh) (e : ℕ) (r : ℕ × ℕ) : Prop where
  valid : m'.Valid
  place : ∃ ρ : ℕ → ℕ, (∀ i, m.heLive i → i ≠ 2 * e → i ≠ 2 * e + 1 → ρ i = i) ∧ r = (ρ (2 * e), ρ (2 * e + 1)) ∧
    (∀ i j, m.heLive i → m.heLive j → ρ i = ρ j → i = j) ∧
    (∀ i, m.heLive i → ¬ m.ext i → m'.heLive (ρ i) ∧ m'.heFace (ρ i) = m.heFace i ∧ ¬ m'.ext (ρ i) ∧
      m'.heNext (ρ i) = ρ (m.heNext i) ∧
      (m'.heVertex (ρ i) = m.heVertex i ∨ (m'.heVertex (ρ i) = m.nVFill ∧ m.OnBdy (m.heVertex i) ∧
        (m.heVertex i = m.heVertex (2 * e) ∨ m.heVertex i = m.heVertex (2 * e + 1)))))
  edges : ({r.1 / 2, r.2 / 2} : Set ℕ) = {e, m.nEFill}
  bdy : m'.ext (twin r.1) ∧ m'.ext (twin r.2)
  count : m'.nHe = m.nHe + 2 ∧ m'.nE = m.nE + 1 ∧ m'.nF = m.nF ∧ m'.nInt = m.nInt
  topo : (¬ m.OnBdy (m.heVertex (2 * e)) ∧ ¬ m.OnBdy (m.heVertex (2 * e + 1)) → m'.nV = m.nV ∧ m'.nBL = m.nBL + 1) ∧
    (m.OnBdy (m.heVertex (2 * e)) ∨ m.OnBdy (m.heVertex (2 * e + 1)) → m'.nV = m.nV + 1 ∧ m'.nBL = m.nBL)

/-- The full property: on every valid mesh and interior edge with at most one boundary endpoint the call leaves the
separated mesh, with the right counts. -/
def C11_statement : Prop :=
  ∀ (m : Mesh), m.Valid → ∀ e, m.heLive (2 * e) → ¬ m.ext (2 * e + 1) →
    ¬ (m.OnBdy (m.heVertex (2 * e)) ∧ m.OnBdy (m.heVertex (2 * e + 1))) →
    (m.separateEdge e = .error .oom ∧ m.nearLimit 1) ∨
    ∃ m' r, m.separateEdge e = .ok (m', r) ∧ Separated m m' e r

/-- The part of `Separated` about the old interior halfedges, before `ensureEdgeHasInteriorHalfedge`. -/
theorem sepPlace {m m' : Mesh} (hv : m.Valid) {T p n1 n2 fl : ℕ} (B : SepBase m m' T p n1 n2 fl)
    (hlive : ∀ i, m'.heLive i ↔ i = n1 ∨ i = n2 ∨ m.heLive i)
    (hnext : ∀ i, m.heLive i → ¬ m.ext i → i ≠ T → i ≠ p → m'.heNext i = m.heNext i) {i : ℕ} (hi : m.heLive i) (xi : ¬ m.ext i) :
    m'.heLive (swp T n1 i) ∧ m'.heFace (swp T n1 i) = m.heFace i ∧ ¬ m'.ext (swp T n1 i) ∧
      m'.heNext (swp T n1 i) = swp T n1 (m.heNext i) := by
  by_cases c : i = T
  · subst c
    rw [swp_left]
    refine ⟨(hlive _).2 (Or.inl rfl), B.f_n1, B.ext_n1, ?_⟩
    rw [B.next_n1, swp_ne (hv.deg_two i hi) (B.lt (hv.next_live i hi)).1]
  · rw [swp_ne c (B.lt hi).1]
    refine ⟨(hlive _).2 (Or.inr (Or.inr hi)), B.f_o i c (B.lt hi).1 (B.lt hi).2, ?_, ?_⟩
    · rw [B.ext_iff hi]; rintro (h | h)
      · exact c h
      · exact xi h
    · by_cases d : i = p
      · subst d; rw [B.next_p, B.np, swp_left]
      · rw [hnext i hi xi c d, swp_ne (fun e => d (hv.next_inj hi B.lp (e.trans B.np.symm))) (B.lt (hv.next_live i hi)).1]

/-- `ensureEdgeHasInteriorHalfedge` where it has to switch. -/
theorem ensure_switched {m : Mesh} (hw : m.WeakValid) (e : ℕ) (he : m.heLive (2 * e))
    (ho : ∀ e', e' ≠ e → m.heLive (2 * e') → ¬ m.ext (2 * e'))
    (hi : ¬ m.ext (2 * e) ∨ ¬ m.ext (2 * e + 1))
    (d1 : m.heNext (2 * e) ≠ 2 * e + 1) (d2 : m.heNext (2 * e + 1) ≠ 2 * e) (hx : m.ext (2 * e)) :
    ∃ m', m.ensureEdgeHasInteriorHalfedge e = .ok (m', true) ∧ m'.Valid ∧ Renamed m m' (2 * e) ∧
      ∀ i, m.heLive i → (m'.ext i ↔ m.ext (swp (2 * e) (twin (2 * e)) i)) := by
  obtain ⟨m', r1, r2, -⟩ := (C12_ensureEdgeHasInteriorHalfedge_partial m hw e he ho hi d1 d2).2 hx
  obtain ⟨m2, h, S⟩ := switch_spec hw (e := e) he (by rw [show eHalfedge e = 2 * e from rfl, twin_two_mul]; exact d1)
    (by rw [show eHalfedge e = 2 * e from rfl, twin_two_mul]; exact d2)
  have R := S.renamed hw he
  have e1 : m' = m2 := by
    unfold ensureEdgeHasInteriorHalfedge at r1
    rw [if_pos (show ¬ m.heIsInterior (eHalfedge e) from fun c => c hx), h] at r1
    simp only [Except.ok.injEq, Prod.mk.injEq] at r1
    exact r1.1.symm
  subst e1
  exact ⟨m', r1, r2, R, (R.weak hw he).2⟩

/-- **C11**, for edges between different vertices and, at a boundary endpoint, triangular faces. The call gives a
mesh that is the separated one except that its count of interior halfedges is one too large.

Missing from the full property, each refuted below: the count (`C11_fails_count`), edges from a vertex to
itself (`C11_fails_loop`), polygons at a boundary endpoint (`C11_fails_polygon`). -/
theorem C11_partial (m : Mesh) (hv : m.Valid) (e : ℕ) (he : m.heLive (2 * e)) (hint : ¬ m.ext (2 * e + 1))
    (hb : ¬ (m.OnBdy (m.heVertex (2 * e)) ∧ m.OnBdy (m.heVertex (2 * e + 1))))
    (hs : m.heVertex (2 * e) ≠ m.heVertex (2 * e + 1))
    (htri : ∀ i, m.heLive i → ¬ m.ext i → (m.heVertex i = m.heVertex (2 * e) ∨ m.heVertex i = m.heVertex (2 * e + 1)) →
      m.OnBdy (m.heVertex i) → m.heNext (m.heNext (m.heNext i)) = i) :
    (m.separateEdge e = .error .oom ∧ m.nearLimit 1) ∨
    ∃ m' r, m.separateEdge e = .ok ({ m' with nInt := m'.nInt + 1 }, r) ∧ Separated m m' e r := by
  have tw : twin (2 * e) = 2 * e + 1 := twin_two_mul e
  have tw' : twin (2 * e + 1) = 2 * e := twin_two_mul_add e
  have hA : eHalfedge e = 2 * e := rfl
  have lH1 : m.heLive (2 * e + 1) := by rw [← tw]; exact hv.twin_live _ he
  have x0 : ¬ m.ext (2 * e) := hv.edge_int e he
  have bA : m.vIsBoundary (m.heVertex (2 * e)) ↔ m.OnBdy (m.heVertex (2 * e)) := hv.bdy_iff (hv.vertex_live _ he)
  have bB : m.vIsBoundary (m.heVertex (2 * e + 1)) ↔ m.OnBdy (m.heVertex (2 * e + 1)) := hv.bdy_iff (hv.vertex_live _ lH1)
  have nbd : ¬ m.eIsBoundary e := by
    unfold eIsBoundary heIsInterior faceIsBL; rw [not_not, hA, tw]; exact hint
  have hfill := hv.he_fill
  have heven : twin m.nHeFill = m.nHeFill + 1 := by rw [hv.he_fill, twin_two_mul]
  have hlt : 2 * e + 1 < m.nHeFill := lH1.1
  unfold separateEdge
  rw [if_neg nbd]
  simp only [hA, tw]
  -- case 2 with the halfedge `h` of `e` leaving the boundary vertex
  have case2 : ∀ (b : Bool) (h p : ℕ), h = (if b then 2 * e + 1 else 2 * e) → m.heLive p → m.heNext p = twin h →
      m.OnBdy (m.heVertex h) → ¬ m.OnBdy (m.heVertex (twin h)) →
      (m.separateCase2 h p b = .error .oom ∧ m.nearLimit 1) ∨
      ∃ m' r, m.separateCase2 h p b = .ok ({ m' with nInt := m'.nInt + 1 }, r) ∧ Separated m m' e r := by
    intro b h p hh lp np oA oB
    have lh : m.heLive h := by rw [hh]; cases b <;> simp [he, lH1]
    have lt := hv.twin_live _ lh
    have xh : ¬ m.ext h := by rw [hh]; cases b <;> simp [x0, hint]
    have xt : ¬ m.ext (twin h) := by rw [hh]; cases b <;> simp [tw, tw', x0, hint]
    have hd : heEdge h = e := by unfold heEdge; rw [hh]; cases b <;> simp <;> omega
    have vv : m.heVertex h = m.heVertex (2 * e) ∨ m.heVertex h = m.heVertex (2 * e + 1) := by
      rw [hh]; cases b <;> simp
    rcases sep2_spec hv lh lp np xh xt ((hv.bdy_iff (hv.vertex_live _ lh)).2 oA)
        (fun x => oB ((hv.bdy_iff (hv.vertex_live _ lt)).1 x))
        (fun i hi xi ei => htri i hi xi (by rw [ei]; exact vv) (by rw [ei]; exact oA)) b with err | ⟨m1, S, hrun⟩
    · exact Or.inl err
    right
    obtain ⟨hw, hlive⟩ := sep2_weak hv S
    have Bs := S.toSepBase
    have lB := hv.twin_live _ S.l0
    have xT1 : m1.ext (twin h) := (Bs.ext_iff lt).2 (Or.inl rfl)
    have xh1 : ¬ m1.ext h := by
      rw [Bs.ext_iff lh]; rintro (c | c)
      · exact twin_ne h c.symm
      · exact xh c
    have xBN : m.ext (m.heNext (twin (m.vHalfedge (m.heVertex h)))) := by
      unfold ext; rw [hv.face_next lB]; exact S.xB
    have no : ∀ i, m.heLive i → ¬ m.ext i → i ≠ twin h → i ≠ p → m1.heNext i = m.heNext i := by
      intro i hi xi c1 c2
      refine S.next_o i c1 (Bs.lt hi).1 (Bs.lt hi).2 c2 ?_
      intro c; rw [c] at xi; exact xi S.xB
    have pl := fun {i} (hi : m.heLive i) (xi : ¬ m.ext i) => sepPlace hv Bs hlive no hi xi
    obtain ⟨Hh0, nfan0, fanv, split, gH⟩ := splitV_facts hv S.lT S.iT S.l0 S.xB S.v0
    rw [twin_twin] at fanv nfan0
    have pv : ∀ i, m.heLive i → ¬ m.ext i → (m1.heVertex (swp (twin h) m.nHeFill i) = m.heVertex i ∨
        (m1.heVertex (swp (twin h) m.nHeFill i) = m.nVFill ∧ m.OnBdy (m.heVertex i) ∧
          (m.heVertex i = m.heVertex (2 * e) ∨ m.heVertex i = m.heVertex (2 * e + 1)))) := by
      intro i hi xi
      by_cases c : i = twin h
      · left; rw [c, swp_left, S.v_n1]
      rw [swp_ne c (Bs.lt hi).1]
      by_cases o : Orb (splitV m (twin h) (m.vHalfedge (m.heVertex h))) h i
      · right
        rw [(fanv i o).2]
        refine ⟨S.v_fan i ?_, oA, vv⟩
        rw [twin_twin]; exact o
      · left; refine S.v_o i (Bs.lt hi).1 (Bs.lt hi).2 ?_
        rw [twin_twin]; exact o
    have cnt : m1.nHe = m.nHe + 2 ∧ m1.nE = m.nE + 1 ∧ m1.nF = m.nF ∧ m1.nInt = m.nInt := ⟨S.c_he, S.c_e, S.c_f, S.c_int⟩
    have top : m.OnBdy (m.heVertex (2 * e)) ∨ m.OnBdy (m.heVertex (2 * e + 1)) := by
      rcases vv with c | c
      · exact Or.inl (c ▸ oA)
      · exact Or.inr (c ▸ oA)
    have topo : (¬ m.OnBdy (m.heVertex (2 * e)) ∧ ¬ m.OnBdy (m.heVertex (2 * e + 1)) → m1.nV = m.nV ∧ m1.nBL = m.nBL + 1) ∧
        (m.OnBdy (m.heVertex (2 * e)) ∨ m.OnBdy (m.heVertex (2 * e + 1)) → m1.nV = m.nV + 1 ∧ m1.nBL = m.nBL) :=
      ⟨fun c => absurd top (by tauto), fun _ => ⟨S.c_v, S.c_bl⟩⟩
    rw [hd, ensure_nInt] at hrun
    have lh1 : m1.heLive h := (hlive _).2 (Or.inr (Or.inr lh))
    have lt1 : m1.heLive (twin h) := (hlive _).2 (Or.inr (Or.inr lt))
    have l2e : m1.heLive (2 * e) := (hlive _).2 (Or.inr (Or.inr he))
    have oth : ∀ e', e' ≠ e → m1.heLive (2 * e') → ¬ m1.ext (2 * e') := by
      intro e' ne l'
      rcases (hlive _).1 l' with c | c | c
      · rw [c]; exact Bs.ext_n1
      · have := S.hn2; omega
      · rw [Bs.ext_iff c]; rintro (d | d)
        · have d2 : 2 * e' / 2 = twin h / 2 := by rw [d]
          have d3 := twin_div h
          have : h / 2 = e := hd
          omega
        · exact hv.edge_int e' c d
    -- neither halfedge of `e` is followed by the other
    have d1 : m1.heNext h ≠ twin h := by
      intro c
      have f1 := (hw.face_iff h (twin h) lh1 lt1).2 ⟨1, by simpa using c⟩
      unfold ext at xh1 xT1; omega
    have d2 : m1.heNext (twin h) ≠ h := by
      intro c
      have f1 := (hw.face_iff (twin h) h lt1 lh1).2 ⟨1, by simpa using c⟩
      unfold ext at xh1 xT1; omega
    have inj : ∀ i j, m.heLive i → m.heLive j → swp (twin h) m.nHeFill i = swp (twin h) m.nHeFill j → i = j := by
      intro i j _ _ q
      have := congrArg (swp (twin h) m.nHeFill) q
      rwa [swp_swp, swp_swp] at this
    cases b with
    | false =>
      simp only [Bool.false_eq_true, if_false] at hh hrun
      subst hh
      rw [tw] at *
      obtain ⟨A1, -⟩ := C12_ensureEdgeHasInteriorHalfedge_partial m1 hw e l2e oth (Or.inl xh1) d1 d2
      obtain ⟨r1, r2⟩ := A1 xh1
      rw [r1] at hrun
      refine ⟨m1, _, hrun, r2, ⟨swp (2 * e + 1) m.nHeFill, fun i hi _ i2 => ?_, ?_, inj, ?_⟩, ?_, ?_, cnt, topo⟩
      · exact swp_ne i2 (Bs.lt hi).1
      · rw [swp_left, swp_ne (by omega) (by omega)]; rfl
      · intro i hi xi
        obtain ⟨q1, q2, q3, q4⟩ := pl hi xi
        exact ⟨q1, q2, q3, q4, pv i hi xi⟩
      · show ({2 * e / 2, m.nHeFill / 2} : Set ℕ) = _
        rw [show 2 * e / 2 = e by omega, show m.nHeFill / 2 = m.nEFill by omega]
      · show m1.ext (twin (2 * e)) ∧ m1.ext (twin m.nHeFill)
        rw [twin_two_mul, heven]; exact ⟨xT1, Bs.ext_n2⟩
    | true =>
      simp only [if_true] at hh hrun
      subst hh
      rw [tw'] at *
      obtain ⟨m2, r1, r2, R, R2⟩ := ensure_switched hw e l2e oth (Or.inr xh1) d2 d1 xT1
      rw [r1] at hrun
      obtain ⟨k1, k2, k3, k4, k5, k6, k7, k8, k9, k10, k11, k12, k13, k14, k15⟩ := R.counts
      rw [← k4] at hrun
      rw [tw] at R2
      have sl : ∀ i, m1.heLive i → m1.heLive (swp (2 * e) (2 * e + 1) i) := by
        intro i hi; unfold swp; split_ifs
        · exact lh1
        · exact l2e
        · exact hi
      have n1e : swp (2 * e) (2 * e + 1) m.nHeFill = m.nHeFill := swp_ne (by omega) (by omega)
      refine ⟨m2, _, hrun, r2, ⟨fun i => swp (2 * e) (2 * e + 1) (swp (2 * e) m.nHeFill i), fun i hi i1 i2 => ?_, ?_, ?_, ?_⟩,
        ?_, ?_, ?_, ?_⟩
      · show swp _ _ (swp _ _ _) = _
        rw [swp_ne i1 (Bs.lt hi).1, swp_ne i1 i2]
      · beta_reduce
        show (m.nHeFill, 2 * e) = _
        rw [swp_left, n1e, swp_ne (i := 2 * e + 1) (by omega) (by omega), swp_right]
      · intro i j hi hj q
        have := congrArg (swp (2 * e) (2 * e + 1)) q
        simp only [swp_swp] at this
        exact inj i j hi hj this
      · intro i hi xi
        obtain ⟨q1, q2, q3, q4⟩ := pl hi xi
        have pv' := pv i hi xi
        have l' := sl _ q1
        have F := R.face _ l'
        have V := R.vert _ l'
        have N := R.next _ l'
        rw [tw, swp_swp] at F V N
        refine ⟨(R.live _).2 l', F.trans q2, ?_, ?_, ?_⟩
        · rw [R2 _ l', swp_swp]; exact q3
        · show m2.heNext _ = swp _ _ (swp _ _ _)
          rw [N, q4]
        · show m2.heVertex _ = _ ∨ _
          rw [V]; exact pv'
      · show ({m.nHeFill / 2, 2 * e / 2} : Set ℕ) = _
        rw [show 2 * e / 2 = e by omega, show m.nHeFill / 2 = m.nEFill by omega, Set.pair_comm]
      · show m2.ext (twin m.nHeFill) ∧ m2.ext (twin (2 * e))
        have l2 : m1.heLive (m.nHeFill + 1) := (hlive _).2 (Or.inr (Or.inl rfl))
        rw [tw, heven, R2 _ l2, R2 _ lh1, swp_right, swp_ne (by omega) (by omega)]
        exact ⟨Bs.ext_n2, xT1⟩
      · rw [k1, k8, k11, k4]; exact cnt
      · rw [k5, k14]; exact topo
  by_cases oA : m.OnBdy (m.heVertex (2 * e))
  · have oB : ¬ m.OnBdy (m.heVertex (2 * e + 1)) := fun h => hb ⟨oA, h⟩
    have a1 := bA.2 oA
    have a2 : ¬ m.vIsBoundary (m.heVertex (2 * e + 1)) := fun h => oB (bB.1 h)
    have dd : decide (m.vIsBoundary (m.heVertex (2 * e + 1)) ∧ ¬ m.vIsBoundary (m.heVertex (2 * e))) = false := by
      simp [a2]
    rw [dd]
    simp only [Bool.false_eq_true, if_false]
    obtain ⟨p, hp, lp, np⟩ := hv.prevOrbitFace_ok (i := twin (2 * e)) (by rw [tw]; exact lH1)
    rw [hp]
    simp only
    rw [if_neg (fun h => h.1 a1), if_pos (fun h => a2 h.2)]
    exact case2 false (2 * e) p rfl lp np oA (by rw [tw]; exact oB)
  · have a1 : ¬ m.vIsBoundary (m.heVertex (2 * e)) := fun h => oA (bA.1 h)
    by_cases oB : m.OnBdy (m.heVertex (2 * e + 1))
    · have a2 := bB.2 oB
      have dd : decide (m.vIsBoundary (m.heVertex (2 * e + 1)) ∧ ¬ m.vIsBoundary (m.heVertex (2 * e))) = true := by
        simp [a1, a2]
      rw [dd]
      simp only [if_true]
      obtain ⟨p, hp, lp, np⟩ := hv.prevOrbitFace_ok (i := twin (2 * e + 1)) (by rw [tw']; exact he)
      rw [hp]
      simp only
      rw [if_neg (fun h => h.2 a2), if_pos (fun h => a1 h.1)]
      exact case2 true (2 * e + 1) p rfl lp np oB (by rw [tw']; exact oA)
    · have a2 : ¬ m.vIsBoundary (m.heVertex (2 * e + 1)) := fun h => oB (bB.1 h)
      have dd : decide (m.vIsBoundary (m.heVertex (2 * e + 1)) ∧ ¬ m.vIsBoundary (m.heVertex (2 * e))) = false := by
        simp [a2]
      rw [dd]
      simp only [Bool.false_eq_true, if_false]
      obtain ⟨p, hp, lp, np⟩ := hv.prevOrbitFace_ok (i := twin (2 * e)) (by rw [tw]; exact lH1)
      rw [hp]
      simp only
      rw [if_pos ⟨a1, a2⟩]
      rcases sep1_spec hv he lp np x0 (by rw [tw]; exact hint) (by rw [tw]; exact hs) a1 (by rw [tw]; exact a2) with
        err | ⟨m1, hrun, hsv, S⟩
      · exact Or.inl err
      right
      obtain ⟨hw, hlive⟩ := sep1_weak hsv S
      have Bs := S.toSepBase
      rw [tw] at S Bs
      have no : ∀ i, m.spare.heLive i → ¬ m.spare.ext i → i ≠ 2 * e + 1 → i ≠ p → m1.heNext i = m.spare.heNext i := by
        intro i hi _ c1 c2
        exact S.next_o i c1 (Bs.lt hi).1 (Bs.lt hi).2 c2
      have xT1 : m1.ext (2 * e + 1) := (Bs.ext_iff (spare_heLive.2 lH1)).2 (Or.inl rfl)
      refine ⟨m1, _, hrun, hw.valid ?_, ⟨swp (2 * e + 1) m.nHeFill, fun i hi _ i2 => ?_, ?_, ?_, ?_⟩, ?_, ?_, ?_, ?_⟩
      · intro e' l'
        unfold eHalfedge at *
        rcases (hlive _).1 l' with c | c | c
        · rw [c]; exact Bs.ext_n1
        · omega
        · rw [Bs.ext_iff c]; rintro (d | d)
          · omega
          · exact hsv.edge_int e' c d
      · exact swp_ne i2 (Bs.lt (spare_heLive.2 hi)).1
      · rw [swp_left, swp_ne (by omega) (by omega)]
      · intro i j _ _ q
        have := congrArg (swp (2 * e + 1) m.nHeFill) q
        rwa [swp_swp, swp_swp] at this
      · intro i hi xi
        obtain ⟨q1, q2, q3, q4⟩ := sepPlace hsv Bs hlive no (spare_heLive.2 hi) (by rw [spare_ext]; exact xi)
        rw [spare_heFace_int xi] at q2
        rw [spare_heNext] at q4
        refine ⟨q1, q2, q3, q4, Or.inl ?_⟩
        by_cases c : i = 2 * e + 1
        · rw [c, swp_left, S.v_n1, spare_heVertex]
        · have hh := Bs.lt (spare_heLive.2 hi)
          rw [swp_ne c hh.1, S.v_o i hh.1 hh.2, spare_heVertex]
      · show ({2 * e / 2, m.nHeFill / 2} : Set ℕ) = _
        rw [show 2 * e / 2 = e by omega, show m.nHeFill / 2 = m.nEFill by omega]
      · show m1.ext (twin (2 * e)) ∧ m1.ext (twin m.nHeFill)
        rw [tw, heven]; exact ⟨xT1, Bs.ext_n2⟩
      · refine ⟨?_, ?_, ?_, ?_⟩
        · rw [S.c_he, spare_nHe]
        · rw [S.c_e, spare_nE]
        · rw [S.c_f, spare_nF]
        · rw [S.c_int, spare_nInt]
      · refine ⟨fun _ => ⟨?_, ?_⟩, fun c => ?_⟩
        · rw [S.c_v, spare_nV]
        · rw [S.c_bl, spare_nBL]
        · rcases c with c | c
          · exact absurd c oA
          · exact absurd c oB

/-- A disc of three triangles around the vertex 3. -/
def wheel : Mesh := ofLists [8, 5, 11, 1, 6, 3, 10, 0, 7, 2, 4, 9] [0, 1, 1, 2, 2, 0, 0, 3, 1, 3, 3, 2]
  [0, 3, 1, 3, 2, 3, 2, 0, 0, 1, 2, 1] [0, 2, 4, 7] [0, 2, 4, 1] 3

theorem wheel_valid : wheel.Valid := valid_of_check (by decide +kernel)

theorem lt_of_live {m : Mesh} {i n : ℕ} (h : m.heLive i) (hn : m.nHeFill = n) : i < n := hn ▸ h.1

/-- The hypotheses of `C11_partial` are met by an edge of the closed tetrahedron (case 1), and in `wheel` by an
edge leaving a boundary vertex and by one arriving at a boundary vertex (case 2 without and with swap). -/
example : (tetra.Valid ∧ tetra.heLive (2 * 0) ∧ ¬ tetra.ext (2 * 0 + 1) ∧ (∀ v, ¬ tetra.OnBdy v) ∧
      tetra.heVertex (2 * 0) ≠ tetra.heVertex (2 * 0 + 1)) ∧
    (wheel.Valid ∧ (∀ i, wheel.heLive i → ¬ wheel.ext i → wheel.heNext (wheel.heNext (wheel.heNext i)) = i) ∧
      wheel.heLive (2 * 3) ∧ ¬ wheel.ext (2 * 3 + 1) ∧ wheel.heLive (2 * 5) ∧ ¬ wheel.ext (2 * 5 + 1) ∧
      wheel.heVertex (2 * 3 + 1) = 3 ∧ wheel.heVertex (2 * 5) = 3 ∧ ¬ wheel.OnBdy 3 ∧
      wheel.heVertex (2 * 3) = 0 ∧ wheel.heVertex (2 * 5 + 1) = 2 ∧ wheel.OnBdy 0 ∧ wheel.OnBdy 2) := by
  refine ⟨⟨tetra_valid, by decide +kernel, by decide +kernel, ?_, by decide +kernel⟩, wheel_valid, ?_, by decide +kernel,
    by decide +kernel, by decide +kernel, by decide +kernel, by decide +kernel, by decide +kernel, ?_, by decide +kernel, by decide +kernel,
    ⟨5, by decide +kernel⟩, ⟨3, by decide +kernel⟩⟩
  · rintro v ⟨i, hi, -, x⟩
    have h : ∀ i < 12, ¬ tetra.ext i := by decide +kernel
    exact h i (lt_of_live hi rfl) x
  · intro i hi
    have h : ∀ i < 12, ¬ wheel.ext i → wheel.heNext (wheel.heNext (wheel.heNext i)) = i := by decide +kernel
    exact h i (lt_of_live hi rfl)
  · rintro ⟨i, hi, e, x⟩
    have h : ∀ i < 12, wheel.heVertex i = 3 → ¬ wheel.ext i := by decide +kernel
    exact h i (lt_of_live hi rfl) e x

/-- Both cases run: the edge from the boundary vertex 0 to the centre opens the boundary loop, and vertex 0 is split
in two; the edge from the centre to vertex 2 likewise, with the sides of the old edge switched. -/
example : (wheel.separateEdge 3).map (fun r => (r.2, r.1.nV, r.1.nBL, r.1.nE, (List.range 14).map r.1.heVertex)) =
      .ok ((6, 12), 5, 1, 7, [0, 1, 1, 2, 2, 4, 4, 3, 1, 3, 3, 2, 3, 0]) ∧
    (wheel.separateEdge 5).map (fun r => (r.2, r.1.nV, r.1.nBL, r.1.nE, (List.range 14).map r.1.heVertex)) =
      .ok ((12, 10), 5, 1, 7, [0, 1, 1, 4, 2, 0, 0, 3, 1, 3, 4, 3, 3, 2]) ∧
    (tetra.separateEdge 0).map (fun r => (r.2, r.1.nV, r.1.nBL, r.1.nE)) = .ok ((0, 12), 4, 1, 7) :=
  ⟨rfl, rfl, rfl⟩

/-- **C11, refusals.** On a boundary edge, and on an edge with both endpoints on the boundary, the call throws. -/
theorem C11_refuses (m : Mesh) (hv : m.Valid) (e : ℕ) (he : m.heLive (2 * e))
    (h : m.ext (2 * e + 1) ∨ (m.OnBdy (m.heVertex (2 * e)) ∧ m.OnBdy (m.heVertex (2 * e + 1)))) :
    m.separateEdge e = .error .throw := by
  have tw : twin (2 * e) = 2 * e + 1 := twin_two_mul e
  have hA : eHalfedge e = 2 * e := rfl
  have lH1 : m.heLive (2 * e + 1) := by rw [← tw]; exact hv.twin_live _ he
  unfold separateEdge
  by_cases c : m.eIsBoundary e
  · rw [if_pos c]
  rw [if_neg c]
  have hint : ¬ m.ext (2 * e + 1) := by
    unfold eIsBoundary heIsInterior faceIsBL at c; rw [not_not, hA, tw] at c; exact c
  obtain ⟨oA, oB⟩ := h.resolve_left hint
  have a1 := (hv.bdy_iff (hv.vertex_live _ he)).2 oA
  have a2 := (hv.bdy_iff (hv.vertex_live _ lH1)).2 oB
  simp only [hA, tw]
  have dd : decide (m.vIsBoundary (m.heVertex (2 * e + 1)) ∧ ¬ m.vIsBoundary (m.heVertex (2 * e))) = false := by
    simp [a1]
  rw [dd]
  simp only [Bool.false_eq_true, if_false]
  obtain ⟨p, hp, lp, np⟩ := hv.prevOrbitFace_ok (i := twin (2 * e)) (by rw [tw]; exact lH1)
  rw [hp]
  simp only
  rw [if_neg (fun h => h.1 a1), if_neg (not_not.2 ⟨a1, a2⟩)]

/-- Both kinds of refusal occur: a boundary edge and the diagonal of the square. -/
example : square.Valid ∧ square.heLive (2 * 0) ∧ square.ext (2 * 0 + 1) ∧ square.heLive (2 * 2) ∧ ¬ square.ext (2 * 2 + 1) ∧
    square.OnBdy (square.heVertex (2 * 2)) ∧ square.OnBdy (square.heVertex (2 * 2 + 1)) := by
  refine ⟨square_valid, by decide +kernel, by decide +kernel, by decide +kernel, by decide +kernel, ?_, ?_⟩
  · have : ∃ i < 10, square.heLive i ∧ square.heVertex i = square.heVertex (2 * 2) ∧ square.ext i := by decide +kernel
    obtain ⟨i, -, h⟩ := this; exact ⟨i, h⟩
  · have : ∃ i < 10, square.heLive i ∧ square.heVertex i = square.heVertex (2 * 2 + 1) ∧ square.ext i := by decide +kernel
    obtain ⟨i, -, h⟩ := this; exact ⟨i, h⟩

/-- **C11, failure of the count.** In every run covered by `C11_partial` the count of interior halfedges is wrong
afterwards: it is one more than the number of live halfedges in interior faces. -/
theorem C11_fails_count (m : Mesh) (hv : m.Valid) (e : ℕ) (he : m.heLive (2 * e)) (hint : ¬ m.ext (2 * e + 1))
    (hb : ¬ (m.OnBdy (m.heVertex (2 * e)) ∧ m.OnBdy (m.heVertex (2 * e + 1))))
    (hs : m.heVertex (2 * e) ≠ m.heVertex (2 * e + 1))
    (htri : ∀ i, m.heLive i → ¬ m.ext i → (m.heVertex i = m.heVertex (2 * e) ∨ m.heVertex i = m.heVertex (2 * e + 1)) →
      m.OnBdy (m.heVertex i) → m.heNext (m.heNext (m.heNext i)) = i)
    (m' : Mesh) (r : ℕ × ℕ) (h : m.separateEdge e = .ok (m', r)) :
    m'.nInt = Nat.count (fun i => m'.heNext i ≠ INV ∧ m'.heFace i < m'.nFFill) m'.nHeFill + 1 ∧ ¬ m'.Valid := by
  rcases C11_partial m hv e he hint hb hs htri with ⟨err, -⟩ | ⟨m1, r1, run, S⟩
  · rw [err] at h; cases h
  rw [run] at h
  injection h with h
  injection h with h1 h2
  have : m'.nInt = Nat.count (fun i => m'.heNext i ≠ INV ∧ m'.heFace i < m'.nFFill) m'.nHeFill + 1 := by
    rw [← h1]; exact congrArg (· + 1) S.valid.cnt_int
  refine ⟨this, fun hv' => ?_⟩
  have := hv'.cnt_int
  omega

/-- The full statement is false: on the tetrahedron the count comes out wrong. -/
theorem C11_statement_fails : ¬ C11_statement := by
  intro H
  have nob : ∀ v, ¬ tetra.OnBdy v := by
    rintro v ⟨i, hi, -, x⟩
    have h : ∀ i < 12, ¬ tetra.ext i := by decide +kernel
    exact h i (lt_of_live hi rfl) x
  rcases H tetra tetra_valid 0 (by decide +kernel) (by decide +kernel) (fun h => nob _ h.1) with ⟨err, -⟩ | ⟨m', r, run, S⟩
  · have : (tetra.separateEdge 0).map (fun r => r.2) = .ok (0, 12) := rfl
    rw [err] at this; cases this
  · exact (C11_fails_count tetra tetra_valid 0 (by decide +kernel) (by decide +kernel) (fun h => nob _ h.1) (by decide +kernel)
      (fun i _ _ _ h => absurd h (nob _)) m' r run).2 S.valid

/-- **C11, failure at an edge from a vertex to itself.** The two sides of the slit then meet in one vertex, which
two exterior halfedges leave: the result is not valid, whatever the counts. -/
theorem C11_fails_loop : ∃ (m : Mesh) (e : ℕ) (m' : Mesh) (r : ℕ × ℕ), m.Valid ∧ m.heLive (2 * e) ∧ ¬ m.ext (2 * e + 1) ∧
    (∀ v, ¬ m.OnBdy v) ∧ m.heVertex (2 * e) = m.heVertex (2 * e + 1) ∧ m.separateEdge e = .ok (m', r) ∧
    ∀ k, ¬ ({ m' with nInt := k } : Mesh).Valid := by
  obtain ⟨m', h⟩ : ∃ m', pillowFlipped.separateEdge 0 = .ok (m', (0, 6)) := ⟨_, rfl⟩
  have hm : m' = (pillowFlipped.separateEdge 0).toOption.elim pillow Prod.fst := by rw [h]; rfl
  refine ⟨pillowFlipped, 0, m', (0, 6), pillowFlipped_valid, by decide +kernel, by decide +kernel, ?_, by decide +kernel, h, ?_⟩
  · rintro v ⟨i, hi, -, x⟩
    have h : ∀ i < 6, ¬ pillowFlipped.ext i := by decide +kernel
    exact h i (lt_of_live hi rfl) x
  · intro k hv
    have h1 : m'.heLive 1 ∧ m'.heLive 7 ∧ m'.ext 1 ∧ m'.ext 7 ∧ m'.heVertex 1 = m'.heVertex 7 := by
      rw [hm]; decide +kernel
    have := hv.bdy_unique 1 7 h1.1 h1.2.1 h1.2.2.1 h1.2.2.2.1 h1.2.2.2.2
    exact absurd this (by decide)

/-- A disc of two quadrilaterals around the vertex 4. -/
def twoQuads : Mesh := ofLists [2, 7, 11, 1, 6, 3, 8, 5, 10, 0, 4, 9] [0, 1, 1, 2, 2, 3, 3, 0, 0, 4, 4, 2]
  [0, 2, 0, 2, 1, 2, 1, 2, 1, 0, 1, 0] [0, 2, 4, 6, 10] [0, 8, 1] 2

theorem twoQuads_valid : twoQuads.Valid := valid_of_check (by decide +kernel)

/-- **C11, failure at polygons.** The loop over the fan of the split vertex steps with `next().next().twin()`, which is
the next halfedge of the fan only in triangles. At a quadrilateral it leaves the vertex: halfedge 5, from vertex 3 to
vertex 2, gets the new vertex as its origin, though the halfedge 6 that follows it around vertex 3 keeps vertex 3. -/
theorem C11_fails_polygon : ∃ (m : Mesh) (e : ℕ) (m' : Mesh) (r : ℕ × ℕ), m.Valid ∧ m.heLive (2 * e) ∧ ¬ m.ext (2 * e + 1) ∧
    m.heVertex (2 * e) ≠ m.heVertex (2 * e + 1) ∧ m.OnBdy (m.heVertex (2 * e)) ∧ ¬ m.OnBdy (m.heVertex (2 * e + 1)) ∧
    m.separateEdge e = .ok (m', r) ∧ m.heVertex 5 = 3 ∧ m'.heVertex 5 = 5 ∧ m'.vNext 5 = 6 ∧ m'.heVertex 6 = 3 ∧
    ∀ k, ¬ ({ m' with nInt := k } : Mesh).Valid := by
  obtain ⟨m', h⟩ : ∃ m', twoQuads.separateEdge 4 = .ok (m', (8, 12)) := ⟨_, rfl⟩
  have hm : m' = (twoQuads.separateEdge 4).toOption.elim pillow Prod.fst := by rw [h]; rfl
  refine ⟨twoQuads, 4, m', (8, 12), twoQuads_valid, by decide +kernel, by decide +kernel, by decide +kernel, ⟨7, by decide +kernel⟩, ?_, h,
    by decide +kernel, by rw [hm]; decide +kernel, by rw [hm]; decide +kernel, by rw [hm]; decide +kernel, ?_⟩
  · rintro ⟨i, hi, e, x⟩
    have h : ∀ i < 12, twoQuads.heVertex i = twoQuads.heVertex (2 * 4 + 1) → ¬ twoQuads.ext i := by decide +kernel
    exact h i (lt_of_live hi rfl) e x
  · intro k hv
    have h0 : m'.heLive 5 := by rw [hm]; decide +kernel
    have h1 := hv.vertex_vNext (i := 5) h0
    have h2 : m'.heVertex (m'.vNext 5) ≠ m'.heVertex 5 := by rw [hm]; decide +kernel
    exact h2 h1

end Mesh
end GC
