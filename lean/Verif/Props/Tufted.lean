import Verif.Tufted
import Verif.Props.Duplicate
import Verif.Props.Invert
import Verif.Props.Separate
import Mathlib.Algebra.BigOperators.Group.Finset.Basic

/-! # C74: the tufted cover -/

namespace GC.GMesh

/-- The correspondence read off by the loop. -/
theorem tuftPairs_ok {m : GMesh} {x y : ℕ → ℕ} {k : ℕ} (hx : ∀ j, m.heNext (x j) = x (j + 1)) (hy : ∀ j, m.heNext (y j) = y (j + 1))
    (hk : x (k + 1) = x 0) (hi : ∀ i j, i < j → j ≤ k → x i ≠ x j) (hyi : ∀ i j, i < j → j ≤ k → y i ≠ y j)
    (hxy : ∀ i j, i ≤ k → j ≤ k → x i ≠ y j) (o0 : ℕ → ℕ) :
    ∀ (n t : ℕ) (o : ℕ → ℕ), t ≤ k → k < t + n →
      ((∀ j < t, o (x j) = y j ∧ o (y j) = x j) ∧ ∀ z, (∀ j < t, z ≠ x j ∧ z ≠ y j) → o z = o0 z) →
      ∃ o', tuftPairs m (x 0) n o (x t) (y t) = .ok o' ∧
        (∀ j < k + 1, o' (x j) = y j ∧ o' (y j) = x j) ∧ ∀ z, (∀ j < k + 1, z ≠ x j ∧ z ≠ y j) → o' z = o0 z := by
  intro n
  induction n with
  | zero => intro t o h1 h2; omega
  | succ n ih =>
    rintro t o h1 h2 ⟨h3, h4⟩
    unfold tuftPairs
    simp only
    have q : (∀ j < t + 1, upd (upd o (x t) (y t)) (y t) (x t) (x j) = y j ∧ upd (upd o (x t) (y t)) (y t) (x t) (y j) = x j) ∧
        ∀ z, (∀ j < t + 1, z ≠ x j ∧ z ≠ y j) → upd (upd o (x t) (y t)) (y t) (x t) z = o0 z := by
      refine ⟨fun j hj => ?_, fun z hz => ?_⟩
      · rw [upd_ne _ _ (hxy j t (by omega) h1)]
        by_cases e : j = t
        · subst e
          rw [upd_same, upd_same]; exact ⟨rfl, rfl⟩
        · rw [upd_ne _ _ (hi j t (by omega) h1), upd_ne _ _ (hyi j t (by omega) h1), upd_ne _ _ (Ne.symm (hxy t j h1 (by omega)))]
          exact h3 j (by omega)
      · obtain ⟨a, b⟩ := hz t (by omega)
        rw [upd_ne _ _ b, upd_ne _ _ a]
        exact h4 z (fun j hj => hz j (by omega))
    rw [hx t, hy t]
    by_cases e : t = k
    · subst e
      rw [if_pos hk]
      exact ⟨_, rfl, q⟩
    · rw [if_neg (fun z => hi 0 (t + 1) (by omega) (by omega) z.symm)]
      exact ih (t + 1) _ (by omega) (by omega) q

/-- The two sheets, when the faces below `i` have been copied. -/
structure Sheets (m0 : GMesh) (i : ℕ) (s : Tuft) : Prop where
  valid : s.m.Valid
  heFill : s.m.nHeFill + m0.nHe = s.m.nHe + m0.nHeFill
  heLe : m0.nHeFill ≤ s.m.nHeFill
  fFill : m0.nFFill ≤ s.m.nFFill ∧ s.m.nFFill ≤ m0.nFFill + i
  nF : s.m.nF = m0.nF + Nat.count (fun f => m0.fHalfedge f ≠ INV) i
  eFill : s.m.nEFill = m0.nEFill ∧ s.m.nE = m0.nE ∧ s.m.eHalfedge = m0.eHalfedge
  nV : s.m.nV = m0.nV ∧ ∀ v, s.m.vL v ↔ m0.vL v
  fhe : ∀ f < m0.nFFill, s.m.fHalfedge f = m0.fHalfedge f
  front : ∀ f, f < m0.nFFill → s.front f = true
  old : ∀ h < m0.nHeFill, s.m.heNext h = m0.heNext h ∧ s.m.heVertex h = m0.heVertex h ∧ s.m.heFace h = m0.heFace h ∧
    s.m.heEdge h = m0.heEdge h ∧ s.m.heOrient h = m0.heOrient h
  back : ∀ h, m0.heL h → m0.heFace h < i → m0.nHeFill ≤ s.other h ∧ s.m.heL (s.other h) ∧ s.other (s.other h) = h ∧
    s.m.heVertex (s.other h) = m0.tip h ∧ s.m.heNext (s.other (m0.heNext h)) = s.other h ∧ s.m.heEdge (s.other h) = m0.heEdge h ∧
    s.m.heOrient (s.other h) = !m0.heOrient h ∧ s.front (s.m.heFace (s.other h)) = false
  only : ∀ h, s.m.heL h → ¬ m0.heL h → m0.heL (s.other h) ∧ m0.heFace (s.other h) < i ∧ s.other (s.other h) = h

theorem Sheets.old_live {m0 : GMesh} {i : ℕ} {s : Tuft} (S : Sheets m0 i s) {h : ℕ} (hl : m0.heL h) : s.m.heL h :=
  ⟨by have := S.heLe; have := hl.1; omega, by rw [(S.old h hl.1).1]; exact hl.2⟩

theorem Sheets.live_lt {m0 : GMesh} {i : ℕ} {s : Tuft} (S : Sheets m0 i s) {h : ℕ} (hl : s.m.heL h) (hh : h < m0.nHeFill) : m0.heL h :=
  ⟨hh, by rw [← (S.old h hh).1]; exact hl.2⟩

/-- The number of halfedges at most doubles. -/
theorem Sheets.small {m0 : GMesh} {i : ℕ} {s : Tuft} (S : Sheets m0 i s) (hv : m0.Valid) : s.m.nHeFill ≤ 2 * m0.nHeFill := by
  have h1 := S.heFill
  have h2 : s.m.nHe ≤ m0.nHe + m0.nHe := by
    rw [S.valid.cnt_he, hv.cnt_he, Nat.count_eq_card_filter_range, Nat.count_eq_card_filter_range]
    have sub : (Finset.range s.m.nHeFill).filter (fun h => s.m.heNext h ≠ INV) ⊆
        (Finset.range m0.nHeFill).filter (fun h => m0.heNext h ≠ INV) ∪
        ((Finset.range m0.nHeFill).filter (fun h => m0.heNext h ≠ INV)).image s.other := by
      intro h hh
      rw [Finset.mem_filter, Finset.mem_range] at hh
      rw [Finset.mem_union, Finset.mem_image]
      by_cases c : m0.heL h
      · exact .inl (Finset.mem_filter.2 ⟨Finset.mem_range.2 c.1, c.2⟩)
      · obtain ⟨a, -, b⟩ := S.only h hh c
        exact .inr ⟨_, Finset.mem_filter.2 ⟨Finset.mem_range.2 a.1, a.2⟩, b⟩
    refine (Finset.card_le_card sub).trans ((Finset.card_union_le _ _).trans ?_)
    exact Nat.add_le_add_left Finset.card_image_le _
  have h3 : m0.nHe ≤ m0.nHeFill := by rw [hv.cnt_he]; exact Nat.count_le _
  omega

/-- One more face. -/
theorem tuftFace_ok {m0 : GMesh} (hv : m0.Valid) (hlim : 16 * (m0.nHeFill + m0.nEFill + m0.nFFill) < INV) {i : ℕ} {s : Tuft}
    (S : Sheets m0 i s) (hi : m0.fL i) : ∃ s', tuftFace s i = .ok s' ∧ Sheets m0 (i + 1) s' := by
  have hvs := S.valid
  have small := S.small hv
  have hF := S.fFill
  have hE := S.eFill
  have hfi : s.m.fL i := ⟨by have := hi.1; omega, by rw [S.fhe i hi.1]; exact hi.2⟩
  have hface : ∀ h, s.m.heL h ∧ s.m.heFace h = i ↔ m0.heL h ∧ m0.heFace h = i := by
    intro h
    constructor
    · rintro ⟨a, b⟩
      by_cases c : m0.heL h
      · exact ⟨c, by rw [← (S.old h c.1).2.2.1, b]⟩
      · obtain ⟨p, q, r⟩ := S.only h a c
        have := (S.back _ p q).2.2.2.2.2.2.2
        rw [r, b, S.front i hi.1] at this
        cases this
    · rintro ⟨a, b⟩
      exact ⟨S.old_live a, by rw [(S.old h a.1).2.2.1, b]⟩
  obtain ⟨m', g, d1, D, hv'⟩ := dup_core hvs hfi (by unfold nearLimit; rw [hE.1]; have := hi.1; omega)
  obtain ⟨g1, g2, g3, g4⟩ := D.fills
  have gne : i ≠ g := by have := hfi.1; omega
  have hfg : m'.fL g := D.new.2
  obtain ⟨m'', r1, Rv, hv''⟩ := C26 hv' hfg
  have fill' : s.m.nHeFill ≤ m'.nHeFill := by
    obtain ⟨l, l', -, -, -, -, -, -, -, -, -, q⟩ := D.copies
    omega
  have hold' : ∀ {h}, s.m.heL h → m'.heL h := fun {h} a => ⟨by have := a.1; omega, by rw [(D.old h a.1).1]; exact a.2⟩
  set c : ℕ → ℕ := m'.heSibling with hc
  have clive : ∀ h, m0.heL h → m0.heFace h = i → m'.heL (c h) ∧ m'.heFace (c h) = g := by
    intro h a b
    have := hv'.sib_live h (hold' (S.old_live a))
    obtain ⟨p, q⟩ := (hface h).2 ⟨a, b⟩
    exact ⟨this, (D.copy h p q).2.2.2.2.2.2⟩
  have cinj : ∀ h h', m0.heL h → m0.heL h' → c h = c h' → h = h' := fun h h' a b e =>
    hv'.edges.inj (eKey_ne.2 (hold' (S.old_live a))) (eKey_ne.2 (hold' (S.old_live b))) e
  -- the walk around the face
  obtain ⟨l, hl, hnd, hmem, k, hkN, hlk, hhit⟩ := hvs.faceHalfedges_ok hfi
  set x : ℕ → ℕ := fun j => s.m.heNext^[j] (s.m.fHalfedge i) with hx
  have xs : ∀ j, s.m.heNext (x j) = x (j + 1) := fun j => (Function.iterate_succ_apply' s.m.heNext j _).symm
  have xl : ∀ j, s.m.heL (x j) ∧ s.m.heFace (x j) = i := by
    intro j
    induction j with
    | zero => exact hvs.f_he i hfi
    | succ j ih => rw [← xs]; exact ⟨hvs.next_live _ ih.1, (hvs.face_next ih.1).trans ih.2⟩
  have x0 : ∀ j, m0.heL (x j) ∧ m0.heFace (x j) = i := fun j => (hface _).1 (xl j)
  have xs' : ∀ j, m'.heNext (x j) = x (j + 1) := fun j => by rw [(D.old _ (xl j).1.1).1, xs]
  have ys' : ∀ j, m'.heNext (c (x j)) = c (x (j + 1)) := fun j => by rw [(D.copy _ (xl j).1 (xl j).2).2.2.1, xs]
  have xi : ∀ a b, a < b → b ≤ k → x a ≠ x b := by
    intro a b h1 h2 e
    rw [hlk, List.Nodup, List.pairwise_map] at hnd
    have := List.pairwise_iff_getElem.1 hnd a b (by simpa using by omega) (by simpa using by omega) h1
    simp at this
    exact this e
  have xsurj : ∀ h, m0.heL h → m0.heFace h = i → ∃ j < k + 1, h = x j := by
    intro h a b
    have : h ∈ l := (hmem h).2 ((hface h).2 ⟨a, b⟩)
    rw [hlk] at this
    obtain ⟨j, hj, e⟩ := List.mem_map.1 this
    exact ⟨j, List.mem_range.1 hj, e.symm⟩
  have cnew : ∀ h, m0.heL h → m0.heFace h = i → s.m.nHeFill ≤ c h := fun h a b =>
    (D.copy h ((hface h).2 ⟨a, b⟩).1 ((hface h).2 ⟨a, b⟩).2).1
  have fhi : m'.fHalfedge i = x 0 := (D.oldf i hfi).2
  have fhg : m'.fHalfedge g = c (x 0) := by
    obtain ⟨l1, l2, q1, q2, -, -, -, q3, -⟩ := D.copies
    rw [hl] at q1
    injection q1 with q1
    subst q1
    obtain ⟨l2', z1, -, -, k', -, z2, -⟩ := hv'.faceHalfedges_ok hfg
    rw [q2] at z1
    injection z1 with z1
    subst z1
    rw [hlk] at q3
    have q4 := congrArg List.head? (q3.trans z2)
    rw [List.range_succ_eq_map, List.range_succ_eq_map] at q4
    simp only [List.map_cons, List.head?_cons, Function.iterate_zero, id] at q4
    injection q4 with q4
    exact q4.symm
  obtain ⟨o', o1, o2, o3⟩ := tuftPairs_ok (m := m') (x := x) (y := fun j => c (x j)) (k := k) xs' ys' hhit xi
    (fun a b h1 h2 e => xi a b h1 h2 (cinj _ _ (x0 a).1 (x0 b).1 e))
    (fun a b h1 h2 e => by have := cnew _ (x0 b).1 (x0 b).2; have := (xl a).1.1; omega) s.other (m'.nHeFill + 1) 0 s.other (by omega)
    (by omega) ⟨fun j hj => absurd hj (by omega), fun _ _ => rfl⟩
  have oF : ∀ h, m0.heL h → m0.heFace h = i → o' h = c h ∧ o' (c h) = h := by
    intro h a b
    obtain ⟨j, hj, rfl⟩ := xsurj h a b
    exact o2 j hj
  have oN : ∀ z, s.m.heL z → ¬ (m0.heL z ∧ m0.heFace z = i) → o' z = s.other z := by
    intro z a b
    refine o3 z (fun j _ => ⟨fun e => b (e ▸ x0 j), fun e => ?_⟩)
    have := cnew _ (x0 j).1 (x0 j).2
    have := a.1
    omega
  refine ⟨⟨m'', o', fun f => if f = g then false else s.front f⟩, ?_, ?_⟩
  · unfold tuftFace
    rw [if_neg (by rw [S.front i hi.1]; simp)]
    simp only [bind, Except.bind, d1, fhi, fhg]
    rw [o1]
    simp only [r1]
  · obtain ⟨l1, l2, q1, -, -, -, -, -, -, -, qn, qf⟩ := D.copies
    obtain ⟨c1, -, c3, -, c5, c6, -, c8, c9, -, c11, c12, -⟩ := Rv.counts
    have lv : ∀ h, m''.heL h ↔ m'.heL h := fun h => Rv.heL hv' h
    -- what is not in the new face
    have notg : ∀ {h}, s.m.heL h → ¬ (m'.heL h ∧ m'.heFace h = g) := by
      rintro h a ⟨-, b⟩
      rw [(D.old h a.1).2.2.1] at b
      have := (hvs.face_live h a).1
      omega
    have notg' : ∀ {h}, h < s.m.nHeFill → ¬ (m'.heL h ∧ m'.heFace h = g) := by
      rintro h a ⟨p, b⟩
      exact notg ⟨a, by rw [← (D.old h a).1]; exact p.2⟩ ⟨p, b⟩
    have keep : ∀ h < s.m.nHeFill, m''.heNext h = s.m.heNext h ∧ m''.heVertex h = s.m.heVertex h ∧ m''.heFace h = s.m.heFace h ∧
        m''.heEdge h = s.m.heEdge h ∧ m''.heOrient h = s.m.heOrient h := by
      intro h a
      obtain ⟨p1, p2, p3, p4, p5⟩ := D.old h a
      obtain ⟨r1, r2, r3⟩ := Rv.other h (notg' a)
      rw [r1, r2, r3, Rv.face, Rv.edge]
      exact ⟨p1, p2, p3, p4, p5⟩
    refine ⟨hv'', ?_, ?_, ⟨?_, ?_⟩, ?_, ⟨?_, ?_, ?_⟩, ⟨?_, fun v => ?_⟩, fun f hf => ?_, fun f hf => ?_, fun h hh => ?_, fun h a b => ?_, fun h a b => ?_⟩
    · show m''.nHeFill + m0.nHe = m''.nHe + m0.nHeFill
      have := S.heFill; omega
    · show m0.nHeFill ≤ m''.nHeFill
      have := S.heLe; omega
    · show m0.nFFill ≤ m''.nFFill
      omega
    · show m''.nFFill ≤ _
      omega
    · show m''.nF = _
      rw [Nat.count_succ, if_pos hi.2, c11, D.nF, S.nF]; omega
    · exact c9.trans (g3.trans hE.1)
    · exact c8.trans (D.nE.trans hE.2.1)
    · exact Rv.eHe.trans (D.olde.trans hE.2.2)
    · exact c5.trans (D.nV.trans S.nV.1)
    · rw [← S.nV.2 v]
      refine (Rv.vlive v).trans ?_
      unfold vL
      rw [D.oldv, g4]
    · show m''.fHalfedge f = _
      rw [Rv.fHe, D.fhe f (by omega), S.fhe f hf]
    · show (if f = g then false else s.front f) = true
      rw [if_neg (by omega)]; exact S.front f hf
    · obtain ⟨p1, p2, p3, p4, p5⟩ := S.old h hh
      obtain ⟨r1, r2, r3, r4, r5⟩ := keep h (by have := S.heLe; omega)
      exact ⟨r1.trans p1, r2.trans p2, r3.trans p3, r4.trans p4, r5.trans p5⟩
    · show m0.nHeFill ≤ o' h ∧ m''.heL (o' h) ∧ o' (o' h) = h ∧ m''.heVertex (o' h) = m0.tip h ∧ m''.heNext (o' (m0.heNext h)) = o' h ∧
        m''.heEdge (o' h) = m0.heEdge h ∧ m''.heOrient (o' h) = (!m0.heOrient h) ∧ (if m''.heFace (o' h) = g then false else s.front (m''.heFace (o' h))) = false
      by_cases e : m0.heFace h = i
      · -- a halfedge of the new pair
        obtain ⟨u1, u2⟩ := oF h a e
        have an := hv.next_live h a
        have en : m0.heFace (m0.heNext h) = i := (hv.face_next a).trans e
        obtain ⟨w1, -⟩ := oF _ an en
        obtain ⟨sl, sf⟩ := (hface h).2 ⟨a, e⟩
        obtain ⟨v1, v2, v3, v4, v5, v6, v7⟩ := D.copy h sl sf
        obtain ⟨cl, cf⟩ := clive h a e
        have sn : s.m.heNext h = m0.heNext h := (S.old h a.1).1
        rw [u1, u2, w1]
        refine ⟨by have := S.heLe; have := cnew h a e; omega, (lv _).2 cl, rfl, ?_, ?_, ?_, ?_, ?_⟩
        · rw [Rv.vertex _ cl cf]
          unfold tip
          rw [v3, sn, (D.copy _ ((hface _).2 ⟨an, en⟩).1 ((hface _).2 ⟨an, en⟩).2).2.2.2.1, (S.old _ an.1).2.1]
        · have := Rv.next _ cl cf
          rw [v3, sn] at this
          exact this
        · rw [Rv.edge, v5, (S.old h a.1).2.2.2.1]
        · rw [Rv.orient _ cl cf, v6, (S.old h a.1).2.2.2.2]
        · rw [Rv.face, cf, if_pos rfl]
      · have b' : m0.heFace h < i := by omega
        obtain ⟨v1, v2, v3, v4, v5, v6, v7, v8⟩ := S.back h a b'
        have u1 := oN h (S.old_live a) (fun z => e z.2)
        have an := hv.next_live h a
        have en : m0.heFace (m0.heNext h) < i := by rw [hv.face_next a]; exact b'
        have w1 := oN _ (S.old_live an) (fun z => by omega)
        have u2 : o' (s.other h) = h := by
          rw [oN _ v2 (fun z => by have := z.1.1; omega), v3]
        rw [u1, u2, w1]
        obtain ⟨k1, k2, k3, k4, k5⟩ := keep _ v2.1
        have vn := (S.back _ an en).2.1
        refine ⟨v1, (lv _).2 (hold' v2), rfl, k2.trans v4, (keep _ vn.1).1.trans v5, k4.trans v6, k5.trans v7, ?_⟩
        rw [k3, v8]; split <;> rfl
    · show m0.heL (o' h) ∧ m0.heFace (o' h) < i + 1 ∧ o' (o' h) = h
      have a' : m'.heL h := (lv h).1 a
      by_cases e : s.m.heL h
      · obtain ⟨p1, p2, p3⟩ := S.only h e b
        have u1 := oN h e (fun z => b z.1)
        rw [u1]
        exact ⟨p1, by omega, by rw [oN _ (S.old_live p1) (fun z => by omega), p3]⟩
      · obtain ⟨h0, t1, t2, t3⟩ := D.only h a' e
        obtain ⟨y1, y2⟩ := (hface h0).1 ⟨t1, t2⟩
        obtain ⟨u1, u2⟩ := oF h0 y1 y2
        rw [← t3]
        show m0.heL (o' (c h0)) ∧ m0.heFace (o' (c h0)) < i + 1 ∧ o' (o' (c h0)) = c h0
        rw [u2, u1]
        exact ⟨y1, by omega, rfl⟩

/-- The first loop. -/
theorem tuftFaces_ok {m0 : GMesh} (hv : m0.Valid) (hlim : 16 * (m0.nHeFill + m0.nEFill + m0.nFFill) < INV) :
    ∃ s, (List.range m0.nFFill).foldlM (fun s f => if s.m.fHalfedge f = INV then .ok s else tuftFace s f)
      (⟨m0, fun _ => INV, fun _ => true⟩ : Tuft) = .ok s ∧ Sheets m0 m0.nFFill s := by
  refine range_inv (f := fun s f => if s.m.fHalfedge f = INV then .ok s else tuftFace s f) (Sheets m0) ?_ ?_
  · exact ⟨hv, Nat.add_comm _ _, le_rfl, ⟨le_rfl, le_rfl⟩, rfl, ⟨rfl, rfl, rfl⟩, ⟨rfl, fun _ => Iff.rfl⟩, fun _ _ => rfl, fun _ _ => rfl,
      fun _ _ => ⟨rfl, rfl, rfl, rfl, rfl⟩, fun _ _ q => absurd q (by omega), fun _ a b => absurd a b⟩
  · intro i s hi S
    by_cases e : m0.fHalfedge i = INV
    · rw [if_pos (by rw [S.fhe i hi, e])]
      refine ⟨s, rfl, ⟨S.valid, S.heFill, S.heLe, ⟨S.fFill.1, by have := S.fFill.2; omega⟩, ?_, S.eFill, S.nV, S.fhe, S.front, S.old, fun h a b => ?_, fun h a b => ?_⟩⟩
      · rw [Nat.count_succ, if_neg (by simpa using e)]; exact S.nF
      · refine S.back h a ?_
        have := (hv.face_live h a).2
        rcases Nat.lt_succ_iff_lt_or_eq.1 b with q | q
        · exact q
        · rw [q] at this; exact absurd e this
      · obtain ⟨p, q, r⟩ := S.only h a b
        exact ⟨p, by omega, r⟩
    · rw [if_neg (by rw [S.fhe i hi]; exact e)]
      exact tuftFace_ok hv hlim S ⟨hi, e⟩

/-- The gluing around edge `e`: the first `j` pairs `A t`, `B t` have got an edge of their own. -/
structure Glued {α : Type} (m1 : GMesh) (s0 : Glue α) (A B : ℕ → ℕ) (k e j : ℕ) (s : Glue α) : Prop where
  valid : s.m.Valid
  same : SameFaces m1 s.m
  curr : s.curr = A (j % k)
  outside : ∀ h, m1.heL h → m1.heEdge h ≠ e → s.m.heEdge h = s0.m.heEdge h
  glued : ∀ t < j, ∀ h, m1.heL h → (s.m.heEdge h = s.m.heEdge (A t) ↔ h = A t ∨ h = B t)
  rest : ∀ t, j ≤ t → t < k → s.m.heEdge (A t) = e ∧ s.m.heEdge (B t) = e
  elive : ∀ e', s0.m.eL e' → s.m.eL e'
  fill : s0.m.nEFill ≤ s.m.nEFill
  orig : ∀ e', e' ≠ e → s0.m.eL e' → s.orig e' = s0.orig e'
  orig' : (∀ e', s.m.eL e' → ¬ s0.m.eL e' → s.orig e' = false) ∧ ∀ e', s0.orig e' = false → s.orig e' = false
  len : ∀ e', s0.m.eL e' → s.len e' = s0.len e'
  lene : ∀ h, m1.heL h → m1.heEdge h = e → s.len (s.m.heEdge h) = s0.len e

theorem length_gt_two {l : List ℕ} {x y z : ℕ} (hx : x ∈ l) (hy : y ∈ l) (hz : z ∈ l) (xy : x ≠ y) (xz : x ≠ z) (yz : y ≠ z) : 2 < l.length := by
  have : ({x, y, z} : Finset ℕ) ⊆ l.toFinset := by
    intro w hw
    simp only [Finset.mem_insert, Finset.mem_singleton] at hw
    rw [List.mem_toFinset]
    rcases hw with rfl | rfl | rfl <;> assumption
  have c := Finset.card_le_card this
  rw [Finset.card_eq_three.2 ⟨x, y, z, xy, xz, yz, rfl⟩] at c
  exact lt_of_lt_of_le (by omega) (c.trans (List.toFinset_card_le l))

theorem glueStep_ok {α : Type} {m1 : GMesh} {s0 : Glue α} {A B : ℕ → ℕ} {k e : ℕ} {other : ℕ → ℕ} {ef : List ℕ}
    (he0 : s0.m.eL e) (hlim : 2 * (m1.nEFill + m1.nHeFill) < INV)
    (hA : ∀ t < k, m1.heL (A t) ∧ m1.heEdge (A t) = e) (hB : ∀ t < k, m1.heL (B t) ∧ m1.heEdge (B t) = e)
    (iA : ∀ t < k, ∀ t' < k, A t = A t' → t = t') (iB : ∀ t < k, ∀ t' < k, B t = B t' → t = t') (dj : ∀ t < k, ∀ t' < k, A t ≠ B t')
    (cover : ∀ h, m1.heL h → m1.heEdge h = e → ∃ t < k, h = A t ∨ h = B t)
    (hnext : ∀ j < k, ∃ raw, ef[(j + 1) % ef.length]? = some raw ∧ (if m1.heOrient (A j) = m1.heOrient raw then other raw else raw) = B j ∧
      other (B j) = A ((j + 1) % k))
    {j : ℕ} (hj : j < k) {s : Glue α} (G : Glued m1 s0 A B k e j s) :
    ∃ s', glueStep other ef e s j = .ok s' ∧ Glued m1 s0 A B k e (j + 1) s' := by
  have hv := G.valid
  have lv := G.same.heL
  obtain ⟨raw, n1, n2, n3⟩ := hnext j hj
  have hcurr : s.curr = A j := by rw [G.curr, Nat.mod_eq_of_lt hj]
  obtain ⟨eA, eB⟩ := G.rest j le_rfl hj
  have lA := (lv _).2 (hA j hj).1
  have lB := (lv _).2 (hB j hj).1
  have hel : s.m.eL e := G.elive e he0
  have ebound : 2 * s.m.nEFill < INV := by
    have := G.same.grow
    have h2 := hv.nE_le
    have := G.same.fill
    omega
  unfold glueStep
  rw [n1]
  simp only
  rw [hcurr, G.same.orient, n2, n3]
  obtain ⟨l, hl, hnd, hmem, -⟩ := hv.edgeHalfedges_ok hel
  by_cases hk : j + 1 < k
  · -- more than two left
    obtain ⟨eA', -⟩ := G.rest (j + 1) (by omega) hk
    have l3 : 2 < l.length := length_gt_two ((hmem _).2 ⟨lA, eA⟩) ((hmem _).2 ⟨lB, eB⟩) ((hmem _).2 ⟨(lv _).2 (hA _ hk).1, eA'⟩)
      (dj j hj j hj) (fun q => by have := iA j hj _ hk q; omega) (fun q => dj _ hk j hj q.symm)
    obtain ⟨m', e', r1, Sp, hv'⟩ := C28_separate hv lA lB (dj j hj j hj) (by rw [eA, eB]) (l := l) (by rw [eA]; exact hl) l3 ebound
    rw [r1]
    simp only [bind, Except.bind]
    refine ⟨_, rfl, ?_⟩
    have ne : ∀ h, m1.heL h → s.m.heEdge h ≠ e' := fun h hh q => Sp.new.1 (q ▸ hv.edge_live h ((lv h).2 hh))
    have edA : m'.heEdge (A j) = e' := by rw [Sp.edge, if_pos (.inl rfl)]
    have edB : m'.heEdge (B j) = e' := by rw [Sp.edge, if_pos (.inr rfl)]
    have edO : ∀ h, h ≠ A j → h ≠ B j → m'.heEdge h = s.m.heEdge h := fun h p q => by rw [Sp.edge, if_neg (by tauto)]
    refine ⟨hv', G.same.trans (Sp.same hv (by rw [eA, eB])), rfl, fun h hh q => ?_, fun t ht h hh => ?_, fun t h1 h2 => ?_, fun x hx => Sp.elive x (G.elive x hx),
      ?_, fun x hx hx' => ?_, ⟨fun x hx hx' => ?_, fun x hx => ?_⟩, fun x hx => ?_, fun h hh q => ?_⟩
    · show m'.heEdge h = _
      rw [edO h (fun z => q (z ▸ (hA j hj).2)) (fun z => q (z ▸ (hB j hj).2))]
      exact G.outside h hh q
    · show m'.heEdge h = m'.heEdge (A t) ↔ _
      by_cases et : t = j
      · subst et
        rw [edA]
        constructor
        · intro q
          by_contra c
          rw [not_or] at c
          rw [edO h c.1 c.2] at q
          exact ne h hh q
        · rintro (rfl | rfl)
          · exact edA
          · exact edB
      · have ht' : t < j := by omega
        rw [edO (A t) (fun q => et (iA t (by omega) j hj q)) (dj t (by omega) j hj)]
        by_cases c : h = A j
        · subst c
          rw [edA]
          refine ⟨fun q => absurd q.symm (ne _ (hA t (by omega)).1), ?_⟩
          rintro (q | q)
          · exact absurd (iA j hj t (by omega) q) (Ne.symm et)
          · exact absurd q (dj j hj t (by omega))
        · by_cases c' : h = B j
          · subst c'
            rw [edB]
            refine ⟨fun q => absurd q.symm (ne _ (hA t (by omega)).1), ?_⟩
            rintro (q | q)
            · exact absurd q.symm (dj t (by omega) j hj)
            · exact absurd (iB j hj t (by omega) q) (Ne.symm et)
          · rw [edO h c c']
            exact G.glued t ht' h hh
    · show m'.heEdge (A t) = e ∧ m'.heEdge (B t) = e
      obtain ⟨p, q⟩ := G.rest t (by omega) h2
      rw [edO (A t) (fun z => by have := iA t h2 j hj z; omega) (dj t h2 j hj), edO (B t) (fun z => dj j hj t h2 z.symm) (fun z => by have := iB t h2 j hj z; omega)]
      exact ⟨p, q⟩
    · show s0.m.nEFill ≤ m'.nEFill
      have := G.fill; have := Sp.nEFill; omega
    · show (if x = e' then false else s.orig x) = _
      rw [if_neg (fun z : x = e' => Sp.new.1 (z ▸ G.elive x hx')), G.orig x hx hx']
    · show (if x = e' then false else s.orig x) = _
      rcases Sp.eonly x hx with z | z
      · split
        · rfl
        · exact G.orig'.1 x z hx'
      · rw [if_pos z]
    · show (if x = e' then false else s.orig x) = _
      split
      · rfl
      · exact G.orig'.2 x hx
    · show (if x = e' then s.len e else s.len x) = _
      rw [if_neg (fun z : x = e' => Sp.new.1 (z ▸ G.elive x hx)), G.len x hx]
    · show (if m'.heEdge h = e' then s.len e else s.len (m'.heEdge h)) = _
      by_cases c : h = A j ∨ h = B j
      · rw [Sp.edge, if_pos c, if_pos rfl, G.len e he0]
      · rw [not_or] at c
        rw [edO h c.1 c.2, if_neg (ne h hh), G.lene h hh q]
  · -- the last pair keeps the old edge
    have ej : j + 1 = k := by omega
    have last : ∀ h, m1.heL h → (s.m.heEdge h = e ↔ h = A j ∨ h = B j) := by
      intro h hh
      constructor
      · intro q
        have q1 : m1.heEdge h = e := by
          rw [← (hA j hj).2]
          exact G.same.apart h (A j) hh (hA j hj).1 (by rw [q, eA])
        obtain ⟨t, ht, c⟩ := cover h hh q1
        by_cases et : t = j
        · rw [← et]; exact c
        · exfalso
          have ht' : t < j := by omega
          have g1 := (G.glued t ht' h hh).2 c
          have g2 := (G.glued t ht' (A j) (hA j hj).1).1 (by rw [eA, ← q, g1])
          rcases g2 with z | z
          · exact et (iA j hj t ht z).symm
          · exact dj j hj t ht z
      · rintro (rfl | rfl)
        · exact eA
        · exact eB
    have thin : s.m.Thin e := by
      intro a b c la lb lc ha hb hc
      have p1 := (last a ((lv a).1 la)).1 ha
      have p2 := (last b ((lv b).1 lb)).1 hb
      have p3 := (last c ((lv c).1 lc)).1 hc
      rcases p1 with rfl | rfl <;> rcases p2 with rfl | rfl <;> rcases p3 with rfl | rfl <;> simp
    obtain ⟨l', y1, y2⟩ := thin_length hv hel thin
    rw [C28_noop (dj j hj j hj) (by rw [eA, eB]) (l := l') (by rw [eA]; exact y1) y2]
    simp only [bind, Except.bind, eA]
    refine ⟨_, rfl, ?_⟩
    refine ⟨hv, G.same, rfl, G.outside, fun t ht h hh => ?_, fun t h1 h2 => absurd h2 (by omega), G.elive, G.fill, fun x hx hx' => ?_,
      ⟨fun x hx hx' => ?_, fun x hx => ?_⟩, fun x hx => ?_, fun h hh q => ?_⟩
    · by_cases et : t = j
      · subst et
        show s.m.heEdge h = s.m.heEdge (A t) ↔ _
        rw [eA]
        exact last h hh
      · exact G.glued t (by omega) h hh
    · show (if x = e then false else s.orig x) = _
      rw [if_neg hx, G.orig x hx hx']
    · show (if x = e then false else s.orig x) = _
      split
      · rfl
      · exact G.orig'.1 x hx hx'
    · show (if x = e then false else s.orig x) = _
      split
      · rfl
      · exact G.orig'.2 x hx
    · show (if x = e then s.len e else s.len x) = _
      split
      · rename_i z; rw [z, G.len e he0]
      · exact G.len x hx
    · show (if s.m.heEdge h = e then s.len e else s.len (s.m.heEdge h)) = _
      split
      · exact G.len e he0
      · exact G.lene h hh q

/-! ## The halfedges over one original halfedge: `lo` runs against the edge, `hi` along it -/

/-- The one of the two copies that runs against the edge. -/
def lo (m : GMesh) (other : ℕ → ℕ) (h : ℕ) : ℕ := if m.heOrient h then other h else h
/-- The one of the two copies that runs along the edge. -/
def hi (m : GMesh) (other : ℕ → ℕ) (h : ℕ) : ℕ := if m.heOrient h then h else other h

section
variable {m0 : GMesh} {t : Tuft} (S : Sheets m0 m0.nFFill t) (hv : m0.Valid)
include S hv

theorem Sheets.all (h : ℕ) (hl : m0.heL h) : m0.nHeFill ≤ t.other h ∧ t.m.heL (t.other h) ∧ t.other (t.other h) = h ∧
    t.m.heVertex (t.other h) = m0.tip h ∧ t.m.heNext (t.other (m0.heNext h)) = t.other h ∧ t.m.heEdge (t.other h) = m0.heEdge h ∧
    t.m.heOrient (t.other h) = !m0.heOrient h ∧ t.front (t.m.heFace (t.other h)) = false := S.back h hl (hv.face_live h hl).1

theorem Sheets.lo_spec {h : ℕ} (hl : m0.heL h) : t.m.heL (lo m0 t.other h) ∧ t.m.heEdge (lo m0 t.other h) = m0.heEdge h ∧
    t.m.heOrient (lo m0 t.other h) = false := by
  obtain ⟨-, a, -, -, -, b, c, -⟩ := S.all hv h hl
  unfold lo
  by_cases q : m0.heOrient h = true
  · rw [if_pos q]; exact ⟨a, b, by rw [c, q]; rfl⟩
  · rw [if_neg q]; exact ⟨S.old_live hl, (S.old h hl.1).2.2.2.1, by rw [(S.old h hl.1).2.2.2.2]; simpa using q⟩

theorem Sheets.hi_spec {h : ℕ} (hl : m0.heL h) : t.m.heL (hi m0 t.other h) ∧ t.m.heEdge (hi m0 t.other h) = m0.heEdge h ∧
    t.m.heOrient (hi m0 t.other h) = true := by
  obtain ⟨-, a, -, -, -, b, c, -⟩ := S.all hv h hl
  unfold hi
  by_cases q : m0.heOrient h = true
  · rw [if_pos q]; exact ⟨S.old_live hl, (S.old h hl.1).2.2.2.1, by rw [(S.old h hl.1).2.2.2.2]; exact q⟩
  · rw [if_neg q]; exact ⟨a, b, by rw [c]; simpa using q⟩

theorem Sheets.other_hi {h : ℕ} (hl : m0.heL h) : t.other (hi m0 t.other h) = lo m0 t.other h := by
  obtain ⟨-, -, a, -⟩ := S.all hv h hl
  unfold hi lo
  by_cases q : m0.heOrient h = true
  · rw [if_pos q, if_pos q]
  · rw [if_neg q, if_neg q, a]

theorem Sheets.lo_inj {h h' : ℕ} (hl : m0.heL h) (hl' : m0.heL h') (e : lo m0 t.other h = lo m0 t.other h') : h = h' := by
  obtain ⟨a, -, b, -⟩ := S.all hv h hl
  obtain ⟨a', -, b', -⟩ := S.all hv h' hl'
  have := hl.1
  have := hl'.1
  unfold lo at e
  split at e <;> split at e
  · rw [← b, ← b', e]
  · omega
  · omega
  · exact e

theorem Sheets.hi_inj {h h' : ℕ} (hl : m0.heL h) (hl' : m0.heL h') (e : hi m0 t.other h = hi m0 t.other h') : h = h' := by
  apply S.lo_inj hv hl hl'
  rw [← S.other_hi hv hl, ← S.other_hi hv hl', e]

theorem Sheets.lo_ne_hi {h h' : ℕ} (hl : m0.heL h) (hl' : m0.heL h') : lo m0 t.other h ≠ hi m0 t.other h' := by
  intro e
  have h1 := (S.lo_spec hv hl).2.2
  rw [e, (S.hi_spec hv hl').2.2] at h1
  cases h1

theorem Sheets.cover {z : ℕ} (hz : t.m.heL z) : ∃ h, m0.heL h ∧ m0.heEdge h = t.m.heEdge z ∧ (z = lo m0 t.other h ∨ z = hi m0 t.other h) := by
  by_cases c : m0.heL z
  · refine ⟨z, c, (S.old z c.1).2.2.2.1.symm, ?_⟩
    unfold lo hi
    by_cases q : m0.heOrient z = true
    · rw [if_pos q, if_pos q]; exact .inr rfl
    · rw [if_neg q, if_neg q]; exact .inl rfl
  · obtain ⟨a, -, b⟩ := S.only z hz c
    refine ⟨_, a, ?_, ?_⟩
    · have := (S.all hv _ a).2.2.2.2.2.1
      rw [b] at this; exact this.symm
    · unfold lo hi
      rw [b]
      by_cases q : m0.heOrient (t.other z) = true
      · rw [if_pos q, if_pos q]; exact .inl rfl
      · rw [if_neg q, if_neg q]; exact .inr rfl

theorem Sheets.front_iff {z : ℕ} (hz : t.m.heL z) : t.front (t.m.heFace z) = true ↔ m0.heL z := by
  constructor
  · intro q
    by_contra c
    obtain ⟨a, -, b⟩ := S.only z hz c
    have := (S.all hv _ a).2.2.2.2.2.2.2
    rw [b, q] at this
    cases this
  · intro c
    rw [(S.old z c.1).2.2.1]
    exact S.front _ (hv.face_live z c).1

/-- The order in which the copies are glued around edge `e`. -/
def Around {α : Type} (m0 : GMesh) (t : Tuft) (s : Glue α) (e : ℕ) (ef : List ℕ) : Prop :=
  ef.Nodup ∧ (∀ x, x ∈ ef ↔ m0.heL x ∧ m0.heEdge x = e) ∧
    ∀ j < ef.length, ∀ h, t.m.heL h → (s.m.heEdge h = s.m.heEdge (lo m0 t.other (ef.getD j 0)) ↔
      h = lo m0 t.other (ef.getD j 0) ∨ h = hi m0 t.other (ef.getD ((j + 1) % ef.length) 0))

/-- The second loop, when the edges below `i` are done. -/
structure Covered {α : Type} (m0 : GMesh) (t : Tuft) (len0 : ℕ → α) (i : ℕ) (s : Glue α) : Prop where
  valid : s.m.Valid
  same : SameFaces t.m s.m
  fill : t.m.nEFill ≤ s.m.nEFill
  new : ∀ e, s.m.eL e → ¬ t.m.eL e → s.orig e = false
  todo : ∀ e, i ≤ e → t.m.eL e → s.orig e = true ∧ s.len e = len0 e ∧ ∀ h, t.m.heL h → (s.m.heEdge h = e ↔ t.m.heEdge h = e)
  done : ∀ e < i, t.m.eL e → ∃ ef, Around m0 t s e ef
  lend : ∀ h, t.m.heL h → t.m.heEdge h < i → s.len (s.m.heEdge h) = len0 (t.m.heEdge h)

theorem tuftEdge_ok {α : Type} {sort : GMesh → ℕ → List ℕ → List ℕ} (hsort : ∀ m e l, (sort m e l).Perm l) {len0 : ℕ → α}
    (hlim : 2 * (t.m.nEFill + t.m.nHeFill) < INV) {i : ℕ} {s : Glue α} (C : Covered m0 t len0 i s) (hi0 : t.m.eL i) :
    ∃ s', tuftEdge sort t.other t.front s i = .ok s' ∧ Covered m0 t len0 (i + 1) s' := by
  have hvs := C.valid
  have lv := C.same.heL
  have hel : s.m.eL i := C.same.elive i hi0
  obtain ⟨o1, o2, o3⟩ := C.todo i le_rfl hi0
  obtain ⟨l, hl, hnd, hmem, -⟩ := hvs.edgeHalfedges_ok hel
  set ef := sort s.m i (l.filter (fun he => t.front (s.m.heFace he))) with hef
  have pm : ef.Perm (l.filter (fun he => t.front (s.m.heFace he))) := hsort _ _ _
  have enod : ef.Nodup := pm.nodup_iff.2 (hnd.filter _)
  have emem : ∀ x, x ∈ ef ↔ m0.heL x ∧ m0.heEdge x = i := by
    intro x
    rw [pm.mem_iff, List.mem_filter, hmem, C.same.face]
    constructor
    · rintro ⟨⟨a, b⟩, c⟩
      have a' := (lv x).1 a
      have c' := (S.front_iff hv a').1 c
      refine ⟨c', ?_⟩
      rw [← (S.old x c'.1).2.2.2.1]
      exact (o3 x a').1 b
    · rintro ⟨a, b⟩
      have a' := S.old_live a
      refine ⟨⟨(lv x).2 a', (o3 x a').2 ?_⟩, (S.front_iff hv a').2 a⟩
      rw [(S.old x a.1).2.2.2.1, b]
  obtain ⟨c, rest, hcr⟩ : ∃ c rest, ef = c :: rest := by
    obtain ⟨p, q⟩ := S.valid.e_he i hi0
    obtain ⟨h, a, b, -⟩ := S.cover hv p
    have : h ∈ ef := (emem h).2 ⟨a, b.trans q⟩
    cases hh : ef with
    | nil => rw [hh] at this; cases this
    | cons c r => exact ⟨c, r, rfl⟩
  set k := ef.length with hk
  have k0 : 0 < k := by rw [hk, hcr]; simp
  set a : ℕ → ℕ := fun j => ef.getD j 0 with ha
  have ag : ∀ j < k, ef[j]? = some (a j) := fun j hj => by
    rw [ha]; simp only [List.getD_eq_getElem?_getD, List.getElem?_eq_getElem hj, Option.getD_some]
  have al : ∀ j < k, m0.heL (a j) ∧ m0.heEdge (a j) = i := fun j hj => (emem _).1 (List.mem_of_getElem? (ag j hj))
  have ai : ∀ j < k, ∀ j' < k, a j = a j' → j = j' := by
    intro j hj j' hj' q
    have h1 := ag j hj
    have h2 := ag j' hj'
    rw [← q] at h2
    obtain ⟨_, e1⟩ := List.getElem?_eq_some_iff.1 h1
    obtain ⟨_, e2⟩ := List.getElem?_eq_some_iff.1 h2
    exact (enod.getElem_inj_iff).1 (e1.trans e2.symm)
  have asur : ∀ x, m0.heL x → m0.heEdge x = i → ∃ j < k, a j = x := by
    intro x p q
    obtain ⟨j, hj, e⟩ := List.mem_iff_getElem.1 ((emem x).2 ⟨p, q⟩)
    refine ⟨j, hj, ?_⟩
    have := ag j hj
    rw [List.getElem?_eq_getElem hj, e] at this
    injection this with this
    exact this.symm
  have ml : ∀ j, (j + 1) % k < k := fun j => Nat.mod_lt _ k0
  have minj : ∀ j < k, ∀ j' < k, (j + 1) % k = (j' + 1) % k → j = j' := by
    intro j hj j' hj' q
    rcases Nat.lt_or_ge (j + 1) k with h1 | h1 <;> rcases Nat.lt_or_ge (j' + 1) k with h2 | h2
    · rw [Nat.mod_eq_of_lt h1, Nat.mod_eq_of_lt h2] at q; omega
    · rw [Nat.mod_eq_of_lt h1, show j' + 1 = k by omega, Nat.mod_self] at q; omega
    · rw [Nat.mod_eq_of_lt h2, show j + 1 = k by omega, Nat.mod_self] at q; omega
    · omega
  obtain ⟨s', r1, G⟩ := range_inv (f := glueStep t.other ef i) (n := k)
    (s0 := { s with curr := if s.m.heOrient c then t.other c else c })
    (Glued t.m s (fun j => lo m0 t.other (a j)) (fun j => hi m0 t.other (a ((j + 1) % k))) k i)
    ⟨hvs, C.same, by
      have : a 0 = c := by rw [ha]; simp [hcr]
      show (if s.m.heOrient c then t.other c else c) = lo m0 t.other (a (0 % k))
      rw [Nat.zero_mod, this, C.same.orient, (S.old c (by rw [← this]; exact (al 0 k0).1.1)).2.2.2.2]
      rfl, fun _ _ _ => rfl, fun _ q => absurd q (by omega),
      fun j _ hj => ⟨(o3 _ (S.lo_spec hv (al j hj).1).1).2 ((S.lo_spec hv (al j hj).1).2.1.trans (al j hj).2),
        (o3 _ (S.hi_spec hv (al _ (ml j)).1).1).2 ((S.hi_spec hv (al _ (ml j)).1).2.1.trans (al _ (ml j)).2)⟩, fun _ h => h, le_rfl,
      fun _ _ _ => rfl, ⟨fun _ p q => absurd p q, fun _ h => h⟩, fun _ _ => rfl, fun h p q => by
        show s.len (s.m.heEdge h) = s.len i
        rw [(o3 h p).2 q]⟩
    (fun j s1 hj G => glueStep_ok hel hlim
      (fun j hj => ⟨(S.lo_spec hv (al j hj).1).1, (S.lo_spec hv (al j hj).1).2.1.trans (al j hj).2⟩)
      (fun j hj => ⟨(S.hi_spec hv (al _ (ml j)).1).1, (S.hi_spec hv (al _ (ml j)).1).2.1.trans (al _ (ml j)).2⟩)
      (fun j hj j' hj' q => ai j hj j' hj' (S.lo_inj hv (al j hj).1 (al j' hj').1 q))
      (fun j hj j' hj' q => minj j hj j' hj' (ai _ (ml j) _ (ml j') (S.hi_inj hv (al _ (ml j)).1 (al _ (ml j')).1 q)))
      (fun j hj j' hj' => S.lo_ne_hi hv (al j hj).1 (al _ (ml j')).1)
      (fun h p q => by
        obtain ⟨x, x1, x2, x3⟩ := S.cover hv p
        obtain ⟨j, hj, e⟩ := asur x x1 (x2.trans q)
        rcases x3 with z | z
        · exact ⟨j, hj, .inl (by rw [e]; exact z)⟩
        · rcases Nat.eq_zero_or_pos j with e0 | e0
          · refine ⟨k - 1, by omega, .inr ?_⟩
            rw [show k - 1 + 1 = k by omega, Nat.mod_self, ← e0, e]; exact z
          · refine ⟨j - 1, by omega, .inr ?_⟩
            rw [show j - 1 + 1 = j by omega, Nat.mod_eq_of_lt hj, e]; exact z)
      (fun j hj => by
        have hb := (al _ (ml j)).1
        refine ⟨a ((j + 1) % k), ag _ (ml j), ?_, S.other_hi hv hb⟩
        rw [(S.lo_spec hv (al j hj).1).2.2, (S.old _ hb.1).2.2.2.2]
        unfold hi
        by_cases q : m0.heOrient (a ((j + 1) % k)) = true
        · rw [q, if_neg (by simp), if_pos rfl]
        · have q' : m0.heOrient (a ((j + 1) % k)) = false := by simpa using q
          rw [q', if_pos rfl, if_neg (by simp)])
      hj G)
  refine ⟨s', ?_, ?_⟩
  · unfold tuftEdge
    rw [if_neg (by rw [o1]; simp)]
    simp only [bind, Except.bind, hl]
    rw [← hef, hcr]
    simp only
    rw [← hcr]
    exact r1
  · have out : ∀ h, t.m.heL h → t.m.heEdge h ≠ i → s'.m.heEdge h = s.m.heEdge h := G.outside
    refine ⟨G.valid, G.same, C.fill.trans G.fill, fun e p q => ?_, fun e p q => ?_, fun e p q => ?_, fun h p q => ?_⟩
    · by_cases z : s.m.eL e
      · exact G.orig'.2 e (C.new e z q)
      · exact G.orig'.1 e p z
    · obtain ⟨u1, u2, u3⟩ := C.todo e (by omega) q
      have sl := C.same.elive e q
      refine ⟨by rw [G.orig e (by omega) sl]; exact u1, by rw [G.len e sl]; exact u2, fun h hh => ?_⟩
      by_cases z : t.m.heEdge h = i
      · refine ⟨fun w => absurd (G.same.apart h ?_ hh ?_ ?_) ?_, fun w => absurd w (by omega)⟩
        · exact t.m.eHalfedge e
        · exact (S.valid.e_he e q).1
        · rw [w, out _ (S.valid.e_he e q).1 (by rw [(S.valid.e_he e q).2]; omega)]
          exact ((u3 _ (S.valid.e_he e q).1).2 (S.valid.e_he e q).2).symm
        · rw [z, (S.valid.e_he e q).2]; omega
      · rw [out h hh z]; exact u3 h hh
    · rcases Nat.lt_succ_iff_lt_or_eq.1 p with p' | rfl
      · obtain ⟨ef', n1, n2, n3⟩ := C.done e p' q
        refine ⟨ef', n1, n2, fun j hj h hh => ?_⟩
        have jm : ef'.getD j 0 ∈ ef' := by
          rw [List.getD_eq_getElem?_getD, List.getElem?_eq_getElem hj, Option.getD_some]; exact List.getElem_mem hj
        obtain ⟨j1, j2⟩ := (n2 _).1 jm
        have L := S.lo_spec hv j1
        rw [out _ L.1 (by rw [L.2.1]; omega)]
        by_cases z : t.m.heEdge h = i
        · have hm : ef'.getD ((j + 1) % ef'.length) 0 ∈ ef' := by
            have hj' : (j + 1) % ef'.length < ef'.length := Nat.mod_lt _ (by omega)
            rw [List.getD_eq_getElem?_getD, List.getElem?_eq_getElem hj', Option.getD_some]; exact List.getElem_mem hj'
          obtain ⟨k1, k2⟩ := (n2 _).1 hm
          refine ⟨fun w => ?_, fun w => ?_⟩
          · have := G.same.apart h _ hh L.1 (by rw [w, out _ L.1 (by rw [L.2.1]; omega)])
            rw [z, L.2.1] at this; omega
          · rcases w with rfl | rfl
            · rw [L.2.1] at z; omega
            · rw [(S.hi_spec hv k1).2.1] at z; omega
        · rw [out h hh z]; exact n3 j hj h hh
      · exact ⟨ef, enod, emem, fun j hj h hh => G.glued j hj h hh⟩
    · rcases Nat.lt_succ_iff_lt_or_eq.1 q with q' | q'
      · rw [out h p (by omega), G.len _ (hvs.edge_live h ((lv h).2 p))]
        exact C.lend h p q'
      · rw [G.lene h p q', o2, q']

theorem tuftEdges_ok {α : Type} {sort : GMesh → ℕ → List ℕ → List ℕ} (hsort : ∀ m e l, (sort m e l).Perm l) (len0 : ℕ → α)
    (hlim : 2 * (t.m.nEFill + t.m.nHeFill) < INV) :
    ∃ s, (List.range t.m.nEFill).foldlM (fun s e => if s.m.eHalfedge e = INV then .ok s else tuftEdge sort t.other t.front s e)
      (⟨t.m, fun _ => true, len0, INV⟩ : Glue α) = .ok s ∧ Covered m0 t len0 t.m.nEFill s := by
  refine range_inv (f := fun s e => if s.m.eHalfedge e = INV then .ok s else tuftEdge sort t.other t.front s e) (Covered m0 t len0) ?_ ?_
  · exact ⟨S.valid, .refl _, le_rfl, fun _ a b => absurd a b, fun _ _ _ => ⟨rfl, rfl, fun _ _ => Iff.rfl⟩, fun _ q => absurd q (by omega), fun _ _ q => absurd q (by omega)⟩
  · intro i s hi0 C
    by_cases e : t.m.eL i
    · rw [if_neg (C.same.elive i e).2]
      exact tuftEdge_ok S hv hsort hlim C e
    · have C' : Covered m0 t len0 (i + 1) s := by
        refine ⟨C.valid, C.same, C.fill, C.new, fun x p q => C.todo x (by omega) q, fun x p q => C.done x ?_ q, fun h p q => C.lend h p ?_⟩
        · rcases Nat.lt_succ_iff_lt_or_eq.1 p with p' | rfl
          · exact p'
          · exact absurd q e
        · rcases Nat.lt_succ_iff_lt_or_eq.1 q with p' | p'
          · exact p'
          · exact absurd (p' ▸ S.valid.edge_live h p) e
      by_cases z : s.m.eHalfedge i = INV
      · rw [if_pos z]; exact ⟨s, rfl, C'⟩
      · rw [if_neg z]
        refine ⟨s, ?_, C'⟩
        unfold tuftEdge
        rw [if_pos]
        rw [C.new i ⟨by have := C.fill; omega, z⟩ e]
        simp

end

/-! ## The theorem -/

/-- What a tufted cover `m'`, `len'` of the mesh `m`, `len` is; `back h` is the copy of `h` on the back sheet. -/
structure TuftedCover {α : Type} (m : GMesh) (len : ℕ → α) (m' : GMesh) (len' : ℕ → α) (back : ℕ → ℕ) : Prop where
  /-- the front sheet consists of the old faces -/
  front : ∀ h, m.heL h → m'.heL h ∧ m'.heNext h = m.heNext h ∧ m'.heVertex h = m.heVertex h ∧ m'.heFace h = m.heFace h
  /-- the back sheet consists of the same faces turned over -/
  turned : ∀ h, m.heL h → m'.heL (back h) ∧ m'.heVertex (back h) = m.tip h ∧ m'.tip (back h) = m.heVertex h ∧
    m'.heNext (back (m.heNext h)) = back h
  sheets : ∀ h h', m.heL h → m.heL h' → m'.heFace (back h) ≠ m.heFace h' ∧
    (m'.heFace (back h) = m'.heFace (back h') ↔ m.heFace h = m.heFace h')
  inj : ∀ h h', m.heL h → m.heL h' → (back h = back h' → h = h') ∧ back h ≠ h'
  all : ∀ z, m'.heL z → m.heL z ∨ ∃ h, m.heL h ∧ back h = z
  /-- every edge has two halfedges, in opposite directions: no boundary, manifold, oriented -/
  closed : ∀ e, m'.eL e → m'.isBoundary e = false ∧ m'.isManifold e = true ∧ m'.isOriented e = true
  edge : ∀ h, m'.heL h → m'.heSibling h ≠ h ∧ m'.heSibling (m'.heSibling h) = h ∧
    m'.heVertex (m'.heSibling h) = m'.tip h ∧ m'.tip (m'.heSibling h) = m'.heVertex h
  /-- around every old edge each sheet is joined to the sheet that faces it across the gap to the next face -/
  around : ∀ e, m.eL e → ∃ ef : List ℕ, ef.Nodup ∧ (∀ x, x ∈ ef ↔ m.heL x ∧ m.heEdge x = e) ∧
    ∀ j < ef.length, m'.heSibling (lo m back (ef.getD j 0)) = hi m back (ef.getD ((j + 1) % ef.length) 0)
  /-- lengths are inherited -/
  len : ∀ h, m.heL h → len' (m'.heEdge h) = len (m.heEdge h) ∧ len' (m'.heEdge (back h)) = len (m.heEdge h)
  counts : m'.nV = m.nV ∧ m'.nF = 2 * m.nF ∧ m'.nHe = 2 * m.nHe ∧ m'.nE = m.nHe

/-- The two halfedges of an edge that has exactly two are siblings. -/
theorem Valid.sib_of_two {m : GMesh} (hv : m.Valid) {a b : ℕ} (la : m.heL a) (lb : m.heL b) (hab : a ≠ b)
    (h : ∀ x, m.heL x → (m.heEdge x = m.heEdge a ↔ x = a ∨ x = b)) : m.heSibling a = b := by
  have e1 : m.heEdge (m.heSibling a) = m.heEdge a := ((hv.edge_iff _ _ la (hv.sib_live a la)).2 ⟨1, rfl⟩).symm
  rcases (h _ (hv.sib_live a la)).1 e1 with q | q
  · exfalso
    obtain ⟨n, hn⟩ := (hv.edge_iff a b la lb).1 ((h b lb).2 (.inr rfl)).symm
    rw [Function.iterate_fixed q] at hn
    exact hab hn
  · exact q

/-- Every halfedge of an oriented closed mesh: twice as many halfedges as edges. -/
theorem Valid.nHe_of_closed {m : GMesh} (hv : m.Valid) (h1 : ∀ h, m.heL h → m.heSibling h ≠ h ∧ m.heSibling (m.heSibling h) = h) : m.nHe = 2 * m.nE := by
  rw [hv.cnt_he, hv.cnt_e, Nat.count_eq_card_filter_range, Nat.count_eq_card_filter_range]
  have hm : ∀ x ∈ (Finset.range m.nHeFill).filter (fun i => m.heNext i ≠ INV), m.heEdge x ∈ (Finset.range m.nEFill).filter (fun e => m.eHalfedge e ≠ INV) := by
    intro x hx
    rw [Finset.mem_filter, Finset.mem_range] at hx ⊢
    exact hv.edge_live x hx
  rw [Finset.card_eq_sum_card_fiberwise hm, Finset.sum_const_nat (m := 2), Nat.mul_comm]
  intro e he
  rw [Finset.mem_filter, Finset.mem_range] at he
  obtain ⟨p, q⟩ := hv.e_he e he
  obtain ⟨s1, s2⟩ := h1 _ p
  rw [Finset.card_eq_two]
  refine ⟨m.eHalfedge e, m.heSibling (m.eHalfedge e), Ne.symm s1, ?_⟩
  ext x
  rw [Finset.mem_filter, Finset.mem_filter, Finset.mem_range, Finset.mem_insert, Finset.mem_singleton]
  constructor
  · rintro ⟨lx, ex⟩
    obtain ⟨n, hn⟩ := (hv.edge_iff _ x p lx).1 (q.trans ex.symm)
    have : ∀ n, m.heSibling^[n] (m.eHalfedge e) = m.eHalfedge e ∨ m.heSibling^[n] (m.eHalfedge e) = m.heSibling (m.eHalfedge e) := by
      intro n
      induction n with
      | zero => exact .inl rfl
      | succ n ih =>
        rw [Function.iterate_succ_apply']
        rcases ih with z | z <;> rw [z]
        · exact .inr rfl
        · exact .inl s2
    rw [← hn]
    exact this n
  · rintro (rfl | rfl)
    · exact ⟨p, q⟩
    · exact ⟨hv.sib_live _ p, ((hv.edge_iff _ _ p (hv.sib_live _ p)).2 ⟨1, rfl⟩).symm.trans q⟩

/-- **C74.** `buildIntrinsicTuftedCover` succeeds on every valid mesh, however many faces meet at its edges and vertices and however they are oriented, whatever
order of the faces around the edges is chosen, and gives a tufted cover: two copies of every face, one turned over, glued along closed, manifold, oriented edges. -/
theorem C74 {α : Type} {m : GMesh} (hv : m.Valid) (hlim : 16 * (m.nHeFill + m.nEFill + m.nFFill) < INV)
    {sort : GMesh → ℕ → List ℕ → List ℕ} (hsort : ∀ m e l, (sort m e l).Perm l) (len : ℕ → α) :
    ∃ m' len' back, buildIntrinsicTuftedCover sort m len = .ok (m', len') ∧ m'.Valid ∧ TuftedCover m len m' len' back := by
  obtain ⟨t, r1, S⟩ := tuftFaces_ok hv hlim
  have sm := S.small hv
  obtain ⟨s, r2, C⟩ := tuftEdges_ok S hv hsort len (by have := S.eFill.1; omega)
  have hv' := C.valid
  have lv := C.same.heL
  have nx := C.same.next
  have vx := C.same.vertex
  have tp : ∀ h, s.m.tip h = t.m.tip h := fun h => by unfold tip; rw [nx, vx]
  -- the classes
  have cls : ∀ e, m.eL e → ∃ ef : List ℕ, ef.Nodup ∧ (∀ x, x ∈ ef ↔ m.heL x ∧ m.heEdge x = e) ∧
      ∀ j < ef.length, m.heL (ef.getD j 0) ∧ m.heL (ef.getD ((j + 1) % ef.length) 0) ∧
      s.m.heSibling (lo m t.other (ef.getD j 0)) = hi m t.other (ef.getD ((j + 1) % ef.length) 0) ∧
      s.m.heSibling (hi m t.other (ef.getD ((j + 1) % ef.length) 0)) = lo m t.other (ef.getD j 0) := by
    intro e he
    have he' : t.m.eL e := ⟨by rw [S.eFill.1]; exact he.1, by rw [S.eFill.2.2]; exact he.2⟩
    obtain ⟨ef, n1, n2, n3⟩ := C.done e he'.1 he'
    refine ⟨ef, n1, n2, fun j hj => ?_⟩
    have gm : ∀ i < ef.length, m.heL (ef.getD i 0) := fun i hi => by
      refine ((n2 _).1 ?_).1
      rw [List.getD_eq_getElem?_getD, List.getElem?_eq_getElem hi, Option.getD_some]; exact List.getElem_mem hi
    have g1 := gm j hj
    have g2 := gm ((j + 1) % ef.length) (Nat.mod_lt _ (by omega))
    have l1 := S.lo_spec hv g1
    have l2 := S.hi_spec hv g2
    have ne := S.lo_ne_hi hv g1 g2
    have c := n3 j hj
    have eq := (c _ l2.1).2 (.inr rfl)
    refine ⟨g1, g2, hv'.sib_of_two ((lv _).2 l1.1) ((lv _).2 l2.1) ne (fun x hx => c x ((lv x).1 hx)), ?_⟩
    refine hv'.sib_of_two ((lv _).2 l2.1) ((lv _).2 l1.1) (Ne.symm ne) (fun x hx => ?_)
    rw [eq, c x ((lv x).1 hx), or_comm]
  have edge : ∀ h, s.m.heL h → s.m.heSibling h ≠ h ∧ s.m.heSibling (s.m.heSibling h) = h ∧ s.m.heOrient (s.m.heSibling h) = !s.m.heOrient h := by
    intro h hh
    obtain ⟨x, x1, x2, x3⟩ := S.cover hv ((lv h).1 hh)
    obtain ⟨ef, n1, n2, n3⟩ := cls _ (hv.edge_live x x1)
    obtain ⟨i, hi0, ei⟩ := List.mem_iff_getElem.1 ((n2 x).2 ⟨x1, rfl⟩)
    have gx : ef.getD i 0 = x := by rw [List.getD_eq_getElem?_getD, List.getElem?_eq_getElem hi0, Option.getD_some, ei]
    rcases x3 with z | z
    · obtain ⟨g1, g2, c1, c2⟩ := n3 i hi0
      rw [gx, ← z] at c1 c2
      rw [c1, c2, C.same.orient, (S.hi_spec hv g2).2.2]
      refine ⟨?_, rfl, ?_⟩
      · rw [z]; exact Ne.symm (S.lo_ne_hi hv x1 g2)
      · rw [z, (S.lo_spec hv x1).2.2]; rfl
    · obtain ⟨j, hj, ej⟩ : ∃ j < ef.length, (j + 1) % ef.length = i := by
        rcases Nat.eq_zero_or_pos i with e0 | e0
        · exact ⟨ef.length - 1, by omega, by rw [show ef.length - 1 + 1 = ef.length by omega, Nat.mod_self, e0]⟩
        · exact ⟨i - 1, by omega, by rw [show i - 1 + 1 = i by omega, Nat.mod_eq_of_lt hi0]⟩
      obtain ⟨g1, g2, c1, c2⟩ := n3 j hj
      rw [ej, gx, ← z] at c1 c2
      rw [c2, c1, C.same.orient, (S.lo_spec hv g1).2.2]
      refine ⟨?_, rfl, ?_⟩
      · rw [z]; exact S.lo_ne_hi hv g1 x1
      · rw [z, (S.hi_spec hv x1).2.2]; rfl
  have bk := S.all hv
  refine ⟨s.m, s.len, t.other, ?_, hv', ?_⟩
  · unfold buildIntrinsicTuftedCover
    rw [r1]
    simp only [bind, Except.bind]
    rw [r2]
  · have tip' : ∀ h, m.heL h → t.m.tip (t.other h) = m.heVertex h := by
      intro h hh
      obtain ⟨h0, l0, e0⟩ : ∃ h0, m.heL h0 ∧ m.heNext h0 = h := by
        obtain ⟨h0, a, b⟩ := hv.faces.pred (fKey_some.2 ⟨hh, rfl⟩)
        exact ⟨h0, (fKey_some.1 a).1, b⟩
      obtain ⟨-, -, -, a4, a5, -⟩ := bk h0 l0
      unfold tip
      rw [← e0, a5, a4]
      rfl
    have heq : s.m.nHe = 2 * m.nHe := by
      rw [C.same.counts.1, S.valid.cnt_he, hv.cnt_he, Nat.count_eq_card_filter_range, Nat.count_eq_card_filter_range]
      have : (Finset.range t.m.nHeFill).filter (fun h => t.m.heNext h ≠ INV) = (Finset.range m.nHeFill).filter (fun h => m.heNext h ≠ INV) ∪
          ((Finset.range m.nHeFill).filter (fun h => m.heNext h ≠ INV)).image t.other := by
        ext h
        rw [Finset.mem_union, Finset.mem_image]
        simp only [Finset.mem_filter, Finset.mem_range]
        constructor
        · intro hh
          by_cases c : m.heL h
          · exact .inl c
          · obtain ⟨p, -, q⟩ := S.only h hh c
            exact .inr ⟨_, p, q⟩
        · rintro (hh | ⟨x, hx, rfl⟩)
          · exact S.old_live hh
          · exact (bk x hx).2.1
      rw [this, Finset.card_union_of_disjoint, Finset.card_image_of_injOn]
      · omega
      · intro x hx y hy e
        simp only [Finset.coe_filter, Finset.mem_range, Set.mem_setOf_eq] at hx hy
        rw [← (bk x hx).2.2.1, ← (bk y hy).2.2.1]
        exact congrArg _ e
      · rw [Finset.disjoint_left]
        intro x hx hy
        rw [Finset.mem_image] at hy
        obtain ⟨y, hy, rfl⟩ := hy
        simp only [Finset.mem_filter, Finset.mem_range] at hx hy
        have := (bk y hy).1
        omega
    have lens : ∀ z, t.m.heL z → s.len (s.m.heEdge z) = len (t.m.heEdge z) := fun z hz => C.lend z hz (S.valid.edge_live z hz).1
    refine ⟨fun h hh => ?_, fun h hh => ?_, fun h h' hh hh' => ⟨fun q => ?_, ?_⟩, fun h h' hh hh' => ⟨fun q => ?_, fun q => ?_⟩, fun z hz => ?_, fun e he => ?_, fun h hh => ?_,
      fun e he => ?_, fun h hh => ⟨?_, ?_⟩, ?_, ?_, heq, ?_⟩
    · obtain ⟨a, b, c, -⟩ := S.old h hh.1
      exact ⟨(lv h).2 (S.old_live hh), by rw [nx, a], by rw [vx, b], by rw [C.same.face, c]⟩
    · obtain ⟨-, a2, -, a4, a5, -⟩ := bk h hh
      exact ⟨(lv _).2 a2, by rw [vx, a4], by rw [tp, tip' h hh], by rw [nx, a5]⟩
    · rw [C.same.face] at q
      have := (bk h hh).2.2.2.2.2.2.2
      rw [q, S.front _ (hv.face_live h' hh').1] at this
      cases this
    · rw [C.same.face, S.valid.face_iff _ _ (bk h hh).2.1 (bk h' hh').2.1]
      constructor
      · rintro ⟨n, hn⟩
        have it : ∀ n, ∃ x, m.heL x ∧ m.heFace x = m.heFace h ∧ t.m.heNext^[n] (t.other h) = t.other x := by
          intro n
          induction n with
          | zero => exact ⟨h, hh, rfl, rfl⟩
          | succ n ih =>
            obtain ⟨x, x1, x2, x3⟩ := ih
            obtain ⟨y, a, b⟩ := hv.faces.pred (fKey_some.2 ⟨x1, rfl⟩)
            obtain ⟨a1, a2⟩ := fKey_some.1 a
            exact ⟨y, a1, a2.trans x2, by rw [Function.iterate_succ_apply', x3, ← b, (bk y a1).2.2.2.2.1]⟩
        obtain ⟨x, x1, x2, x3⟩ := it n
        rw [hn] at x3
        rw [← x2, show h' = x by rw [← (bk h' hh').2.2.1, x3, (bk x x1).2.2.1]]
      · intro q
        obtain ⟨n, hn⟩ := (hv.face_iff h' h hh' hh).1 q.symm
        refine ⟨n, ?_⟩
        have it : ∀ n x, m.heL x → t.m.heNext^[n] (t.other (m.heNext^[n] x)) = t.other x := by
          intro n
          induction n with
          | zero => intro x _; rfl
          | succ n ih =>
            intro x hx
            rw [Function.iterate_succ_apply', Function.iterate_succ_apply, ih _ (hv.next_live x hx)]
            exact (bk x hx).2.2.2.2.1
        rw [← hn]
        exact it n h' hh'
    · rw [← (bk h hh).2.2.1, q, (bk h' hh').2.2.1]
    · have := (bk h hh).1
      have := hh'.1
      omega
    · by_cases c : m.heL z
      · exact .inl c
      · obtain ⟨p, -, q⟩ := S.only z ((lv z).1 hz) c
        exact .inr ⟨_, p, q⟩
    · obtain ⟨p, -⟩ := hv'.e_he e he
      obtain ⟨q1, q2, q3⟩ := edge _ p
      refine ⟨by unfold isBoundary; simpa using q1, by unfold isManifold; simp [q2], ?_⟩
      unfold isOriented
      simp only
      rw [if_neg (Ne.symm q1), if_neg (by simpa using q2), q3]
      simp
    · obtain ⟨q1, q2, q3⟩ := edge h hh
      have hs := hv'.sib_live h hh
      have al := hv'.orient h _ hh hs ((hv'.edge_iff _ _ hh hs).2 ⟨1, rfl⟩)
      refine ⟨q1, q2, ?_⟩
      unfold aligned at al
      rw [q3, if_neg (by simp)] at al
      exact ⟨al.2.symm, al.1.symm⟩
    · obtain ⟨ef, n1, n2, n3⟩ := cls e he
      exact ⟨ef, n1, n2, fun j hj => (n3 j hj).2.2.1⟩
    · rw [lens h (S.old_live hh), (S.old h hh.1).2.2.2.1]
    · rw [lens _ (bk h hh).2.1, (bk h hh).2.2.2.2.2.1]
    · rw [C.same.counts.2.2.1, S.nV.1]
    · rw [C.same.counts.2.2.2, S.nF, ← hv.cnt_f]; omega
    · have := hv'.nHe_of_closed (fun h hh => ⟨(edge h hh).1, (edge h hh).2.1⟩)
      omega

/-- **C74, boundary.** At an edge with one face the two copies of the face are glued to each other. -/
theorem C74_boundary {α : Type} {m m' : GMesh} {len len' : ℕ → α} {back : ℕ → ℕ} (T : TuftedCover m len m' len' back) (hv : m.Valid) {h : ℕ} (hh : m.heL h)
    (h1 : ∀ x, m.heL x → m.heEdge x = m.heEdge h → x = h) : m'.heSibling h = back h := by
  obtain ⟨ef, n1, n2, n3⟩ := T.around _ (hv.edge_live h hh)
  have m1 : h ∈ ef := (n2 h).2 ⟨hh, rfl⟩
  have m2 : ∀ x ∈ ef, x = h := fun x hx => h1 x ((n2 x).1 hx).1 ((n2 x).1 hx).2
  obtain rfl : ef = [h] := by
    rcases ef with _ | ⟨a, _ | ⟨b, r⟩⟩
    · cases m1
    · rw [m2 a (by simp)]
    · exfalso
      rw [m2 a (by simp), m2 b (by simp)] at n1
      simp at n1
  have s1 : m'.heSibling (lo m back h) = hi m back h := by
    have := n3 0 (by simp)
    simpa using this
  obtain ⟨l1, -⟩ := T.front h hh
  have l2 := (T.turned h hh).1
  unfold lo hi at s1
  by_cases q : m.heOrient h = true
  · rw [if_pos q, if_pos q] at s1
    have := (T.edge (back h) l2).2.1
    rw [s1] at this
    exact this
  · rw [if_neg q, if_neg q] at s1
    exact s1

/-- **C74, oriented edges.** At an edge where two faces meet in opposite directions the front copies stay glued to each other, and so do the back copies:
a closed oriented manifold mesh is covered by two copies of itself. -/
theorem C74_oriented {α : Type} {m m' : GMesh} {len len' : ℕ → α} {back : ℕ → ℕ} (T : TuftedCover m len m' len' back) (hv : m.Valid) {h g : ℕ}
    (hh : m.heL h) (hg : m.heL g) (he : m.heEdge g = m.heEdge h) (ho : m.heOrient g ≠ m.heOrient h)
    (h2 : ∀ x, m.heL x → m.heEdge x = m.heEdge h → x = h ∨ x = g) : m'.heSibling h = g ∧ m'.heSibling (back h) = back g := by
  -- it suffices to look at one order
  have key : ∀ a b, m.heL a → m.heL b → m.heOrient a ≠ m.heOrient b → (∀ j < 2, m'.heSibling (lo m back ([a, b].getD j 0)) = hi m back ([a, b].getD ((j + 1) % 2) 0)) →
      m'.heSibling a = b ∧ m'.heSibling b = a ∧ m'.heSibling (back a) = back b ∧ m'.heSibling (back b) = back a := by
    intro a b la lb hab hs
    have e1 : m'.heSibling (lo m back a) = hi m back b := hs 0 (by omega)
    have e2 : m'.heSibling (lo m back b) = hi m back a := hs 1 (by omega)
    have ia := (T.edge a (T.front a la).1).2.1
    have ib := (T.edge b (T.front b lb).1).2.1
    have ja := (T.edge (back a) (T.turned a la).1).2.1
    have jb := (T.edge (back b) (T.turned b lb).1).2.1
    unfold lo hi at e1 e2
    by_cases q : m.heOrient a = true
    · have q' : ¬ m.heOrient b = true := fun z => hab (q.trans z.symm)
      rw [if_pos q, if_neg q'] at e1
      rw [if_neg q', if_pos q] at e2
      rw [e1] at ja
      rw [e2] at ib
      exact ⟨ib, e2, e1, ja⟩
    · have q' : m.heOrient b = true := by
        cases c : m.heOrient a <;> cases d : m.heOrient b <;> simp_all
      rw [if_neg q, if_pos q'] at e1
      rw [if_pos q', if_neg q] at e2
      rw [e1] at ia
      rw [e2] at jb
      exact ⟨e1, ia, jb, e2⟩
  obtain ⟨ef, n1, n2, n3⟩ := T.around _ (hv.edge_live h hh)
  have m1 : h ∈ ef := (n2 h).2 ⟨hh, rfl⟩
  have m2 : g ∈ ef := (n2 g).2 ⟨hg, he⟩
  have m3 : ∀ x ∈ ef, x = h ∨ x = g := fun x hx => h2 x ((n2 x).1 hx).1 ((n2 x).1 hx).2
  have hne : g ≠ h := fun z => ho (by rw [z])
  have cases2 : ef = [h, g] ∨ ef = [g, h] := by
    rcases ef with _ | ⟨a, _ | ⟨b, _ | ⟨c, r⟩⟩⟩
    · cases m1
    · simp only [List.mem_singleton] at m1 m2
      exact absurd (m2.trans m1.symm) hne
    · have p := m3 a (by simp)
      have q := m3 b (by simp)
      rcases p with rfl | rfl <;> rcases q with rfl | rfl <;> simp_all
    · exfalso
      have p := m3 a (by simp)
      have q := m3 b (by simp)
      have r := m3 c (by simp)
      rcases p with rfl | rfl <;> rcases q with rfl | rfl <;> rcases r with rfl | rfl <;> simp at n1
  rcases cases2 with rfl | rfl
  · obtain ⟨a, -, b, -⟩ := key h g hh hg (Ne.symm ho) n3
    exact ⟨a, b⟩
  · obtain ⟨-, a, -, b⟩ := key g h hg hh ho n3
    exact ⟨a, b⟩

/-- Three triangles at one edge, not consistently oriented: six triangles, nine edges. -/
example : ∃ m m' len' back, fromPolygons book bookOrder = .ok m ∧ buildIntrinsicTuftedCover (fun _ _ l => l) m (fun e => e + 1) = .ok (m', len') ∧
    TuftedCover m (fun e => e + 1) m' len' back ∧ m'.nF = 6 ∧ m'.nE = 9 := by
  obtain ⟨m, e, hb⟩ := book_built
  have h1 := hb.he
  have h2 := hb.f
  have h3 := hb.e
  have z1 : book.flatten.length = 9 := rfl
  have z2 : book.length = 3 := rfl
  have z3 : INV = 2 ^ 64 - 1 := rfl
  obtain ⟨m', len', back, r, -, T⟩ := C74 hb.valid (by omega) (sort := fun _ _ l => l) (fun _ _ l => .refl l) (fun e => e + 1)
  have c := T.counts
  exact ⟨m, m', len', back, e, r, T, by omega, by omega⟩

end GC.GMesh
