import Verif.GFlip
import Verif.Props.GNav
import Verif.Props.Invert

/-!
# C78: flipping an edge of a general mesh
-/

namespace GC

/-- Two triangles exchange a side: the cycles after a flip. -/
theorem KeyOrb.flip {f g : ℕ → ℕ} {A B : ℕ → Option ℕ} (hk : KeyOrb f A) {a1 a2 a3 b1 b2 b3 x y : ℕ} (hxy : x ≠ y)
    (hA : ∀ h, A h = some x ↔ h = a1 ∨ h = a2 ∨ h = a3) (hB : ∀ h, A h = some y ↔ h = b1 ∨ h = b2 ∨ h = b3)
    (g1 : g a1 = b3) (g2 : g b3 = a2) (g3 : g a2 = a1) (g4 : g b1 = a3) (g5 : g a3 = b2) (g6 : g b2 = b1)
    (go : ∀ h, A h ≠ none → A h ≠ some x → A h ≠ some y → g h = f h)
    (hA' : ∀ h, B h = some x ↔ h = a1 ∨ h = b3 ∨ h = a2) (hB' : ∀ h, B h = some y ↔ h = b1 ∨ h = a3 ∨ h = b2)
    (ho : ∀ h z, z ≠ x → z ≠ y → (B h = some z ↔ A h = some z)) : KeyOrb g B := by
  have stay : ∀ z, z ≠ x → z ≠ y → ∀ h, A h = some z → g h = f h := by
    intro z zx zy h q
    exact go h (by rw [q]; simp) (by rw [q]; simpa using zx) (by rw [q]; simpa using zy)
  have c1 : ∀ h h', (h = a1 ∨ h = b3 ∨ h = a2) → (h' = a1 ∨ h' = b3 ∨ h' = a2) → Orb g h h' := by
    have s1 := Orb.step g a1
    have s2 := Orb.step g b3
    have s3 := Orb.step g a2
    rw [g1] at s1
    rw [g2] at s2
    rw [g3] at s3
    rintro h h' (rfl | rfl | rfl) (rfl | rfl | rfl)
    exacts [Orb.refl _ _, s1, s1.trans s2, s2.trans s3, Orb.refl _ _, s2, s3, s3.trans s1, Orb.refl _ _]
  have c2 : ∀ h h', (h = b1 ∨ h = a3 ∨ h = b2) → (h' = b1 ∨ h' = a3 ∨ h' = b2) → Orb g h h' := by
    have s1 := Orb.step g b1
    have s2 := Orb.step g a3
    have s3 := Orb.step g b2
    rw [g4] at s1
    rw [g5] at s2
    rw [g6] at s3
    rintro h h' (rfl | rfl | rfl) (rfl | rfl | rfl)
    exacts [Orb.refl _ _, s1, s1.trans s2, s2.trans s3, Orb.refl _ _, s2, s3, s3.trans s1, Orb.refl _ _]
  refine ⟨fun h v q => ?_, fun h h' v q q' => ?_⟩
  · by_cases vx : v = x
    · subst vx
      rw [hA'] at q ⊢
      rcases q with rfl | rfl | rfl
      · exact .inr (.inl g1)
      · exact .inr (.inr g2)
      · exact .inl g3
    · by_cases vy : v = y
      · subst vy
        rw [hB'] at q ⊢
        rcases q with rfl | rfl | rfl
        · exact .inr (.inl g4)
        · exact .inr (.inr g5)
        · exact .inl g6
      · rw [ho _ _ vx vy] at q ⊢
        rw [stay v vx vy h q]
        exact hk.mem h v q
  · by_cases vx : v = x
    · subst vx
      exact c1 h h' ((hA' h).1 q) ((hA' h').1 q')
    · by_cases vy : v = y
      · subst vy
        exact c2 h h' ((hB' h).1 q) ((hB' h').1 q')
      · rw [ho _ _ vx vy] at q q'
        exact (Orb.congr (fun z => A z = some v) q (fun z hz => hk.mem z v hz) (fun z hz => (stay v vx vy z hz).symm)).1 (hk.orb h h' v q q')

namespace GMesh

/-- Two triangles `a1 a2 a3` and `b1 b2 b3` in different faces that meet in the manifold edge of `a1`, `b1`. -/
structure Quad (m : GMesh) (a1 a2 a3 b1 b2 b3 : ℕ) : Prop where
  la : m.heL a1
  lb : m.heL b1
  na1 : m.heNext a1 = a2
  na2 : m.heNext a2 = a3
  na3 : m.heNext a3 = a1
  nb1 : m.heNext b1 = b2
  nb2 : m.heNext b2 = b3
  nb3 : m.heNext b3 = b1
  sa : m.heSibling a1 = b1
  sb : m.heSibling b1 = a1
  oa : a2 ≠ a1
  ob : b2 ≠ b1
  face : m.heFace a1 ≠ m.heFace b1

theorem tri_mem {m : GMesh} (hv : m.Valid) {a1 a2 a3 : ℕ} (la : m.heL a1) (n1 : m.heNext a1 = a2) (n2 : m.heNext a2 = a3) (n3 : m.heNext a3 = a1) (h : ℕ) :
    (m.heL h ∧ m.heFace h = m.heFace a1) ↔ h = a1 ∨ h = a2 ∨ h = a3 := by
  constructor
  · rintro ⟨lh, q⟩
    refine ((hv.face_iff a1 h la lh).1 q.symm).mem (fun z => z = a1 ∨ z = a2 ∨ z = a3) (.inl rfl) ?_
    rintro z (rfl | rfl | rfl)
    exacts [.inr (.inl n1), .inr (.inr n2), .inl n3]
  · have l2 := hv.next_live _ la
    have f2 := hv.face_next la
    rw [n1] at l2 f2
    have l3 := hv.next_live _ l2
    have f3 := hv.face_next l2
    rw [n2] at l3 f3
    rintro (rfl | rfl | rfl)
    exacts [⟨la, rfl⟩, ⟨l2, f2⟩, ⟨l3, f3.trans f2⟩]

/-- What a flip does if the two faces are oriented alike. -/
structure Flipped (m m' : GMesh) (a1 a2 a3 b1 b2 b3 : ℕ) : Prop where
  next : m'.heNext a1 = b3 ∧ m'.heNext b3 = a2 ∧ m'.heNext a2 = a1 ∧ m'.heNext b1 = a3 ∧ m'.heNext a3 = b2 ∧ m'.heNext b2 = b1
  next_other : ∀ h, h ≠ a1 → h ≠ a2 → h ≠ a3 → h ≠ b1 → h ≠ b2 → h ≠ b3 → m'.heNext h = m.heNext h
  vertex : m'.heVertex a1 = m.heVertex a3 ∧ m'.heVertex b1 = m.heVertex b3
  vertex_other : ∀ h, h ≠ a1 → h ≠ b1 → m'.heVertex h = m.heVertex h
  face : m'.heFace a3 = m.heFace b1 ∧ m'.heFace b3 = m.heFace a1
  face_other : ∀ h, h ≠ a3 → h ≠ b3 → m'.heFace h = m.heFace h
  orient : m'.heOrient = m.heOrient
  edge : m'.heEdge = m.heEdge
  sibling : m'.heSibling = m.heSibling
  eHe : m'.eHalfedge = m.eHalfedge
  heL_iff : ∀ h, m'.heL h ↔ m.heL h
  vL_iff : ∀ v, m'.vL v ↔ m.vL v
  fL_iff : ∀ f, m'.fL f ↔ m.fL f
  counts : m'.nHe = m.nHe ∧ m'.nInt = m.nInt ∧ m'.nHeFill = m.nHeFill ∧ m'.nHeCap = m.nHeCap ∧
    m'.nV = m.nV ∧ m'.nVFill = m.nVFill ∧ m'.nVCap = m.nVCap ∧ m'.nE = m.nE ∧ m'.nEFill = m.nEFill ∧
    m'.nECap = m.nECap ∧ m'.nF = m.nF ∧ m'.nFFill = m.nFFill ∧ m'.nFCap = m.nFCap

theorem flipAt_eq (m : GMesh) (ha1 ha2 ha3 hb1 hb2 hb3 : ℕ) {N W : ℕ → ℕ}
    (hN : N = upd (upd (upd (upd (upd (upd m.heNext ha1 hb3) hb3 ha2) ha2 ha1) hb1 ha3) ha3 hb2) hb2 hb1)
    (hW : W = upd (upd m.heVertex ha1 (m.heVertex ha3)) hb1 (m.heVertex hb3)) :
    m.flipAt ha1 ha2 ha3 hb1 hb2 hb3 =
    { m with
      vHalfedge := (m.flipAt ha1 ha2 ha3 hb1 hb2 hb3).vHalfedge
      fHalfedge := upd (upd m.fHalfedge (m.heFace ha1) ha1) (m.heFace hb1) hb1
      heNext := N
      heVertex := W
      heFace := upd (upd m.heFace ha3 (m.heFace hb1)) hb3 (m.heFace ha1)
      rin := (((m.rin.remove ha1 (m.tip ha1)).remove hb1 (m.tip hb1)).add ha1 (W (N ha1))).add hb1 (W (N hb1))
      rout := (((m.rout.remove ha1 (m.heVertex ha1)).remove hb1 (m.heVertex hb1)).add ha1 (W ha1)).add hb1 (W hb1) } := by
  subst hN hW
  rfl

theorem flipAt_v (m : GMesh) {ha1 ha2 ha3 hb1 hb2 hb3 : ℕ} (n1 : ha1 ≠ hb2) (n2 : ha2 ≠ ha1) (n3 : ha2 ≠ hb1) (n4 : hb2 ≠ hb1) (v : ℕ) :
    ((m.flipAt ha1 ha2 ha3 hb1 hb2 hb3).vHalfedge v = m.vHalfedge v ∧ ¬ (v = m.heVertex ha1 ∧ m.vHalfedge v = ha1) ∧ ¬ (v = m.heVertex hb1 ∧ m.vHalfedge v = hb1)) ∨
    (v = m.heVertex ha1 ∧ m.vHalfedge v = ha1 ∧ (m.flipAt ha1 ha2 ha3 hb1 hb2 hb3).vHalfedge v = hb2) ∨
    (v = m.heVertex hb1 ∧ m.vHalfedge v = hb1 ∧ (m.flipAt ha1 ha2 ha3 hb1 hb2 hb3).vHalfedge v = ha2) := by
  have e : (m.flipAt ha1 ha2 ha3 hb1 hb2 hb3).vHalfedge =
      let A := if m.vHalfedge (m.heVertex ha1) = ha1 then upd m.vHalfedge (m.heVertex ha1) hb2 else m.vHalfedge
      if A (m.heVertex hb1) = hb1 then upd A (m.heVertex hb1) ha2 else A := rfl
  rw [e]
  simp only
  clear e
  by_cases c : m.vHalfedge (m.heVertex ha1) = ha1
  · rw [if_pos c]
    unfold upd
    split_ifs at * <;> grind
  · rw [if_neg c]
    unfold upd
    split_ifs at * <;> grind

theorem Quad.flipAt_ok {m : GMesh} (hv : m.Valid) {a1 a2 a3 b1 b2 b3 : ℕ} (q : m.Quad a1 a2 a3 b1 b2 b3) (ho : m.heOrient a1 ≠ m.heOrient b1) :
    Flipped m (m.flipAt a1 a2 a3 b1 b2 b3) a1 a2 a3 b1 b2 b3 ∧ (m.flipAt a1 a2 a3 b1 b2 b3).Valid := by
  obtain ⟨la, lb, na1, na2, na3, nb1, nb2, nb3, sa, sb, oa, ob, fc⟩ := q
  have ma := tri_mem hv la na1 na2 na3
  have mb := tri_mem hv lb nb1 nb2 nb3
  have la2 := ((ma a2).2 (by simp))
  have la3 := ((ma a3).2 (by simp))
  have lb2 := ((mb b2).2 (by simp))
  have lb3 := ((mb b3).2 (by simp))
  have d12 : a1 ≠ a2 := oa.symm
  have d13 : a1 ≠ a3 := fun z => d12 (by rw [← na1, z, na3, ← z])
  have d23 : a2 ≠ a3 := fun z => d12 (by rw [← na3, ← z, na2, z])
  have e12 : b1 ≠ b2 := ob.symm
  have e13 : b1 ≠ b3 := fun z => e12 (by rw [← nb1, z, nb3, ← z])
  have e23 : b2 ≠ b3 := fun z => e12 (by rw [← nb3, ← z, nb2, z])
  have dis : ∀ x y, m.heFace x = m.heFace a1 → m.heFace y = m.heFace b1 → x ≠ y := fun x y p r z => fc (by rw [← p, z, r])
  have x11 := dis a1 b1 rfl rfl
  have x12 := dis a1 b2 rfl lb2.2
  have x13 := dis a1 b3 rfl lb3.2
  have x21 := dis a2 b1 la2.2 rfl
  have x22 := dis a2 b2 la2.2 lb2.2
  have x23 := dis a2 b3 la2.2 lb3.2
  have x31 := dis a3 b1 la3.2 rfl
  have x32 := dis a3 b2 la3.2 lb2.2
  have x33 := dis a3 b3 la3.2 lb3.2
  clear dis
  have al : m.heVertex a1 = m.tip b1 ∧ m.tip a1 = m.heVertex b1 := by
    have := hv.orient a1 b1 la lb (by rw [← sa, hv.edge_sib la])
    unfold aligned at this
    rwa [if_neg ho] at this
  have vb2 : m.heVertex b2 = m.heVertex a1 := by rw [al.1, tip, nb1]
  have va2 : m.heVertex a2 = m.heVertex b1 := by rw [← al.2, tip, na1]
  obtain ⟨N, hN⟩ : ∃ N, N = upd (upd (upd (upd (upd (upd m.heNext a1 b3) b3 a2) a2 a1) b1 a3) a3 b2) b2 b1 := ⟨_, rfl⟩
  obtain ⟨W, hW⟩ : ∃ W, W = upd (upd m.heVertex a1 (m.heVertex a3)) b1 (m.heVertex b3) := ⟨_, rfl⟩
  have N1 : N a1 = b3 := by rw [hN]; simp [upd, *]
  have N2 : N b3 = a2 := by rw [hN]; simp [upd, *, Ne.symm]
  have N3 : N a2 = a1 := by rw [hN]; simp [upd, *]
  have N4 : N b1 = a3 := by rw [hN]; simp [upd, *, Ne.symm]
  have N5 : N a3 = b2 := by rw [hN]; simp [upd, *]
  have N6 : N b2 = b1 := by rw [hN]; simp [upd]
  have N7 : ∀ h, h ≠ a1 → h ≠ a2 → h ≠ a3 → h ≠ b1 → h ≠ b2 → h ≠ b3 → N h = m.heNext h := by
    intro h h1 h2 h3 h4 h5 h6
    rw [hN]; simp [upd, *]
  have W1 : W a1 = m.heVertex a3 := by rw [hW]; simp [upd, *]
  have W2 : W b1 = m.heVertex b3 := by rw [hW]; simp [upd]
  have W3 : ∀ h, h ≠ a1 → h ≠ b1 → W h = m.heVertex h := by
    intro h h1 h2
    rw [hW]; simp [upd, *]
  have E := flipAt_eq m a1 a2 a3 b1 b2 b3 hN hW
  have V := flipAt_v m (ha1 := a1) (ha2 := a2) (ha3 := a3) (hb1 := b1) (hb2 := b2) (hb3 := b3) x12 oa x21 ob
  clear hN hW
  generalize m.flipAt a1 a2 a3 b1 b2 b3 = m' at *
  obtain ⟨F, hF⟩ : ∃ F, F = upd (upd m.heFace a3 (m.heFace b1)) b3 (m.heFace a1) := ⟨_, rfl⟩
  obtain ⟨FH, hFH⟩ : ∃ FH, FH = upd (upd m.fHalfedge (m.heFace a1) a1) (m.heFace b1) b1 := ⟨_, rfl⟩
  rw [← hF, ← hFH] at E
  have F1 : F a3 = m.heFace b1 := by rw [hF]; simp [upd, *]
  have F2 : F b3 = m.heFace a1 := by rw [hF]; simp [upd]
  have F3 : ∀ h, h ≠ a3 → h ≠ b3 → F h = m.heFace h := by
    intro h h1 h2
    rw [hF]; simp [upd, *]
  have G1 : FH (m.heFace a1) = a1 := by rw [hFH]; simp [upd, fc]
  have G2 : FH (m.heFace b1) = b1 := by rw [hFH]; simp [upd]
  have G3 : ∀ f, f ≠ m.heFace a1 → f ≠ m.heFace b1 → FH f = m.fHalfedge f := by
    intro h h1 h2
    rw [hFH]; simp [upd, *]
  clear hF hFH
  have i1 : m'.heNext = N := by rw [E]
  have i2 : m'.heVertex = W := by rw [E]
  have i3 : m'.heFace = F := by rw [E]
  have i4 : m'.heSibling = m.heSibling := by rw [E]
  have i5 : m'.heEdge = m.heEdge := by rw [E]
  have i6 : m'.heOrient = m.heOrient := by rw [E]
  have i7 : m'.fHalfedge = FH := by rw [E]
  have i8 : m'.eHalfedge = m.eHalfedge := by rw [E]
  have i9 : m'.rin = (((m.rin.remove a1 (m.tip a1)).remove b1 (m.tip b1)).add a1 (W (N a1))).add b1 (W (N b1)) := by rw [E]
  have i10 : m'.rout = (((m.rout.remove a1 (m.heVertex a1)).remove b1 (m.heVertex b1)).add a1 (W a1)).add b1 (W b1) := by rw [E]
  have c1 : m'.nHe = m.nHe := by rw [E]
  have c2 : m'.nInt = m.nInt := by rw [E]
  have c3 : m'.nHeFill = m.nHeFill := by rw [E]
  have c4 : m'.nHeCap = m.nHeCap := by rw [E]
  have c5 : m'.nV = m.nV := by rw [E]
  have c6 : m'.nVFill = m.nVFill := by rw [E]
  have c7 : m'.nVCap = m.nVCap := by rw [E]
  have c8 : m'.nE = m.nE := by rw [E]
  have c9 : m'.nEFill = m.nEFill := by rw [E]
  have c10 : m'.nECap = m.nECap := by rw [E]
  have c11 : m'.nF = m.nF := by rw [E]
  have c12 : m'.nFFill = m.nFFill := by rw [E]
  have c13 : m'.nFCap = m.nFCap := by rw [E]
  clear E
  -- live elements
  have six : ∀ h, (h = a1 ∨ h = a2 ∨ h = a3 ∨ h = b1 ∨ h = b2 ∨ h = b3) ∨ N h = m.heNext h := by
    intro h
    by_cases z : h = a1 ∨ h = a2 ∨ h = a3 ∨ h = b1 ∨ h = b2 ∨ h = b3
    · exact .inl z
    · simp only [not_or] at z
      exact .inr (N7 h z.1 z.2.1 z.2.2.1 z.2.2.2.1 z.2.2.2.2.1 z.2.2.2.2.2)
  have hL : ∀ h, m'.heL h ↔ m.heL h := by
    intro h
    rcases six h with z | z
    · have lN : m.heL h ∧ N h < INV := by
        rcases z with rfl | rfl | rfl | rfl | rfl | rfl
        · exact ⟨la, by rw [N1]; exact hv.he_lt lb3.1⟩
        · exact ⟨la2.1, by rw [N3]; exact hv.he_lt la⟩
        · exact ⟨la3.1, by rw [N5]; exact hv.he_lt lb2.1⟩
        · exact ⟨lb, by rw [N4]; exact hv.he_lt la3.1⟩
        · exact ⟨lb2.1, by rw [N6]; exact hv.he_lt lb⟩
        · exact ⟨lb3.1, by rw [N2]; exact hv.he_lt la2.1⟩
      refine ⟨fun _ => lN.1, fun _ => ?_⟩
      unfold heL
      rw [c3, i1]
      exact ⟨lN.1.1, by omega⟩
    · unfold heL
      rw [c3, i1, z]
  have fL' : ∀ f, m'.fL f ↔ m.fL f := by
    intro f
    unfold fL
    rw [c12, i7]
    by_cases z : f = m.heFace a1
    · rw [z, G1]
      have := hv.face_live a1 la
      have k := hv.he_lt la
      exact ⟨fun _ => this, fun _ => ⟨this.1, by omega⟩⟩
    · by_cases z' : f = m.heFace b1
      · rw [z', G2]
        have := hv.face_live b1 lb
        have k := hv.he_lt lb
        exact ⟨fun _ => this, fun _ => ⟨this.1, by omega⟩⟩
      · rw [G3 f z z']
  have eL' : ∀ e, m'.eL e ↔ m.eL e := by
    intro e
    unfold eL
    rw [c9, i8]
  have vL' : ∀ v, m'.vL v ↔ m.vL v := by
    intro v
    unfold vL
    rw [c6]
    rcases V v with ⟨z, -⟩ | ⟨z, z', z''⟩ | ⟨z, z', z''⟩
    · rw [z]
    · have k1 := hv.he_lt la
      have k2 := hv.he_lt lb2.1
      rw [z', z'']
      constructor <;> rintro ⟨p, -⟩ <;> exact ⟨p, by omega⟩
    · have k1 := hv.he_lt lb
      have k2 := hv.he_lt la2.1
      rw [z', z'']
      constructor <;> rintro ⟨p, -⟩ <;> exact ⟨p, by omega⟩
  -- ends
  have tipO : ∀ h, m.heL h → h ≠ a1 → h ≠ b1 → W (N h) = m.tip h := by
    intro h lh h1 h2
    unfold tip
    rcases six h with z | z
    · rcases z with rfl | rfl | rfl | rfl | rfl | rfl
      · exact absurd rfl h1
      · rw [N3, W1, na2]
      · rw [N5, W3 _ x12.symm e12.symm, vb2, na3]
      · exact absurd rfl h2
      · rw [N6, W2, nb2]
      · rw [N2, W3 _ oa x21, va2, nb3]
    · rw [z]
      by_cases k1 : h = a3
      · rw [k1] at z
        rw [N5, na3] at z
        exact absurd z.symm x12
      · by_cases k2 : h = b3
        · rw [k2, N2, nb3] at z
          exact absurd z x21
        · rw [W3 _ (fun k => k1 (hv.next_inj lh la3.1 (k.trans na3.symm))) (fun k => k2 (hv.next_inj lh lb3.1 (k.trans nb3.symm)))]
  have edge2 : ∀ h, m.heL h → m.heEdge h = m.heEdge a1 → h = a1 ∨ h = b1 := by
    intro h lh z
    refine ((hv.edge_iff a1 h la lh).1 z.symm).mem (fun z => z = a1 ∨ z = b1) (.inl rfl) ?_
    rintro z (rfl | rfl)
    exacts [.inr sa, .inl sb]
  have eb : m.heEdge b1 = m.heEdge a1 := by rw [← sa, hv.edge_sib la]
  have FL : Flipped m m' a1 a2 a3 b1 b2 b3 := by
    refine ⟨?_, ?_, ?_, ?_, ?_, ?_, i6, i5, i4, i8, hL, vL', fL', c1, c2, c3, c4, c5, c6, c7, c8, c9, c10, c11, c12, c13⟩
    · rw [i1]; exact ⟨N1, N2, N3, N4, N5, N6⟩
    · rw [i1]; exact N7
    · rw [i2]; exact ⟨W1, W2⟩
    · rw [i2]; exact W3
    · rw [i3]; exact ⟨F1, F2⟩
    · rw [i3]; exact F3
  refine ⟨FL, ?_⟩
  -- faces
  have fsome : ∀ (h v : ℕ), (if m'.heL h then some (F h) else none) = some v ↔ m.heL h ∧ F h = v := by
    intro h v
    by_cases z : m.heL h
    · rw [if_pos ((hL h).2 z)]; simp [z]
    · rw [if_neg (fun k => z ((hL h).1 k))]; simp [z]
  have KF : KeyOrb N (fun h => if m'.heL h then some (F h) else none) := by
    refine hv.faces.flip (a1 := a1) (a2 := a2) (a3 := a3) (b1 := b1) (b2 := b2) (b3 := b3) fc (fun h => fKey_some.trans (ma h)) (fun h => fKey_some.trans (mb h)) N1 N2 N3 N4 N5 N6 ?_ ?_ ?_ ?_
    · intro h k1 k2 k3
      have lh := fKey_ne.1 k1
      have k2 : ¬ (h = a1 ∨ h = a2 ∨ h = a3) := fun z => k2 (fKey_some.2 ((ma h).2 z))
      have k3 : ¬ (h = b1 ∨ h = b2 ∨ h = b3) := fun z => k3 (fKey_some.2 ((mb h).2 z))
      simp only [not_or] at k2 k3
      exact N7 h k2.1 k2.2.1 k2.2.2 k3.1 k3.2.1 k3.2.2
    · intro h
      rw [fsome]
      constructor
      · rintro ⟨l, z⟩
        by_cases k1 : h = b3
        · exact .inr (.inl k1)
        · by_cases k2 : h = a3
          · rw [k2, F1] at z
            exact absurd z.symm fc
          · rw [F3 h k2 k1] at z
            rcases (ma h).1 ⟨l, z⟩ with k | k | k
            exacts [.inl k, .inr (.inr k), absurd k k2]
      · rintro (rfl | rfl | rfl)
        · exact ⟨la, F3 _ d13 x13⟩
        · exact ⟨lb3.1, F2⟩
        · exact ⟨la2.1, by rw [F3 _ d23 x23]; exact la2.2⟩
    · intro h
      rw [fsome]
      constructor
      · rintro ⟨l, z⟩
        by_cases k1 : h = a3
        · exact .inr (.inl k1)
        · by_cases k2 : h = b3
          · rw [k2, F2] at z
            exact absurd z fc
          · rw [F3 h k1 k2] at z
            rcases (mb h).1 ⟨l, z⟩ with k | k | k
            exacts [.inl k, .inr (.inr k), absurd k k2]
      · rintro (rfl | rfl | rfl)
        · exact ⟨lb, F3 _ x31.symm e13⟩
        · exact ⟨la3.1, F1⟩
        · exact ⟨lb2.1, by rw [F3 _ x32.symm e23]; exact lb2.2⟩
    · intro h z zx zy
      rw [fsome, fKey_some]
      by_cases k1 : h = a3
      · rw [k1, F1, la3.2]
        exact ⟨fun k => absurd k.2.symm zy, fun k => absurd k.2.symm zx⟩
      · by_cases k2 : h = b3
        · rw [k2, F2, lb3.2]
          exact ⟨fun k => absurd k.2.symm zx, fun k => absurd k.2.symm zy⟩
        · rw [F3 h k1 k2]
  have KF2 := iff_of_key KF
  have Floc : ∀ h, m.heL h → F h = m.heFace h ∨ F h = m.heFace a1 ∨ F h = m.heFace b1 := by
    intro h _
    by_cases k1 : h = a3
    · rw [k1, F1]; exact .inr (.inr rfl)
    · by_cases k2 : h = b3
      · rw [k2, F2]; exact .inr (.inl rfl)
      · exact .inl (F3 h k1 k2)
  have ringA : ∀ (K K' : ℕ → ℕ), (∀ h, m.heL h → h ≠ a1 → h ≠ b1 → K' h = K h) →
      Function.update (Function.update (Function.update (Function.update (fun h => if m.heL h then some (K h) else none) a1 none) b1 none) a1 (some (K' a1))) b1 (some (K' b1)) =
        fun h => if m'.heL h then some (K' h) else none := by
    intro K K' hK
    funext h
    by_cases k1 : h = b1
    · rw [k1, Function.update_self, if_pos ((hL b1).2 lb)]
    · rw [Function.update_of_ne k1]
      by_cases k2 : h = a1
      · rw [k2, Function.update_self, if_pos ((hL a1).2 la)]
      · rw [Function.update_of_ne k2, Function.update_of_ne k1, Function.update_of_ne k2]
        by_cases k : m.heL h
        · rw [if_pos k, if_pos ((hL h).2 k), hK h k k2 k1]
        · rw [if_neg k, if_neg (fun z => k ((hL h).1 z))]
  have vEq : m.vL = m'.vL := funext (fun v => propext (vL' v).symm)
  have Wlive : ∀ h, m.heL h → m.vL (W h) := by
    intro h l
    by_cases k1 : h = a1
    · rw [k1, W1]; exact hv.vertex_live _ la3.1
    · by_cases k2 : h = b1
      · rw [k2, W2]; exact hv.vertex_live _ lb3.1
      · rw [W3 h k1 k2]; exact hv.vertex_live _ l
  have ring : ∀ (R : Ring) (K K' : ℕ → ℕ), (∀ h, m.heL h → h ≠ a1 → h ≠ b1 → K' h = K h) → (∀ h, m.heL h → m.vL (K' h)) →
      Ring.Inv R (fun h => if m.heL h then some (K h) else none) m.vL →
      Ring.Inv ((((R.remove a1 (K a1)).remove b1 (K b1)).add a1 (K' a1)).add b1 (K' b1)) (fun h => if m'.heL h then some (K' h) else none) m'.vL := by
    intro R K K' hK hK' I
    have I1 := Ring.C25_remove I (i := a1) (v := K a1) (if_pos la)
    have I2 := Ring.C25_remove I1 (i := b1) (v := K b1) (by rw [Function.update_of_ne x11.symm]; exact if_pos lb)
    have k1 := hv.he_lt la
    have k2 := hv.he_lt lb
    have I3 := Ring.C25_add I2 (i := a1) (v := K' a1) (by rw [Function.update_of_ne x11, Function.update_self]) (by omega) (hK' _ la)
    have I4 := Ring.C25_add I3 (i := b1) (v := K' b1) (by rw [Function.update_of_ne x11.symm, Function.update_self]) (by omega) (hK' _ lb)
    exact I4.cast (ringA K K' hK) vEq
  refine ⟨?_, ?_, ?_, ?_, ?_, ?_, ?_, ?_, ?_, ?_, ?_, ?_, ?_, ?_, ?_, ?_, ?_, ?_, ?_, ?_, ?_⟩
  · rw [c3, c4]; exact hv.he_cap
  · rw [c6, c7]; exact hv.v_cap
  · rw [c9, c10]; exact hv.e_cap
  · rw [c12, c13]; exact hv.f_cap
  · rw [i1]; exact KF2.1
  · intro i hi
    rw [hL] at hi ⊢
    rw [i4]; exact hv.sib_live i hi
  · intro i hi
    rw [hL] at hi
    rw [vL', i2]; exact Wlive i hi
  · intro i hi
    rw [hL] at hi
    rw [fL', i3]
    rcases Floc i hi with k | k | k <;> rw [k]
    exacts [hv.face_live i hi, hv.face_live _ la, hv.face_live _ lb]
  · intro i hi
    rw [hL] at hi
    rw [eL', i5]; exact hv.edge_live i hi
  · rw [i1, i3]; exact KF2.2
  · intro i j hi hj
    rw [hL] at hi hj
    rw [i5, i4]; exact hv.edge_iff i j hi hj
  · intro v hvl
    rw [vL'] at hvl
    obtain ⟨l, z⟩ := hv.v_he v hvl
    rw [hL, i2]
    rcases V v with ⟨k, k1, k2⟩ | ⟨k, k1, k2⟩ | ⟨k, k1, k2⟩
    · rw [k]
      refine ⟨l, ?_⟩
      rw [W3 _ (fun y => k1 ⟨by rw [← y, z], y⟩) (fun y => k2 ⟨by rw [← y, z], y⟩)]
      exact z
    · rw [k2]
      exact ⟨lb2.1, by rw [W3 _ x12.symm ob, vb2, k]⟩
    · rw [k2]
      exact ⟨la2.1, by rw [W3 _ oa x21, va2, k]⟩
  · intro f hf
    rw [fL'] at hf
    obtain ⟨l, z⟩ := hv.f_he f hf
    rw [hL, i3, i7]
    by_cases k1 : f = m.heFace a1
    · rw [k1, G1]; exact ⟨la, F3 _ d13 x13⟩
    · by_cases k2 : f = m.heFace b1
      · rw [k2, G2]; exact ⟨lb, F3 _ x31.symm e13⟩
      · rw [G3 f k1 k2]
        refine ⟨l, ?_⟩
        rw [F3 _ (fun y => k1 (by rw [← z, y, la3.2])) (fun y => k2 (by rw [← z, y, lb3.2]))]
        exact z
  · intro e he
    rw [eL'] at he
    rw [hL, i5, i8]
    exact hv.e_he e he
  · intro i j hi hj he
    rw [hL] at hi hj
    rw [i5] at he
    have out : ∀ h, m.heL h → ¬ (h = a1 ∨ h = b1) → m'.heVertex h = m.heVertex h ∧ m'.tip h = m.tip h := by
      intro h l z
      rw [not_or] at z
      unfold tip
      rw [i2, i1]
      exact ⟨W3 h z.1 z.2, tipO h l z.1 z.2⟩
    have A1 : m'.heVertex a1 = m.heVertex a3 ∧ m'.tip a1 = m.heVertex b3 := by
      unfold tip; rw [i1, i2, N1]; exact ⟨W1, W3 _ x13.symm e13.symm⟩
    have B1 : m'.heVertex b1 = m.heVertex b3 ∧ m'.tip b1 = m.heVertex a3 := by
      unfold tip; rw [i1, i2, N4]; exact ⟨W2, W3 _ d13.symm x31⟩
    have O := hv.orient i j hi hj he
    unfold aligned at O ⊢
    rw [i6]
    by_cases k : i = a1 ∨ i = b1
    · have ke : m.heEdge i = m.heEdge a1 := by rcases k with rfl | rfl; exacts [rfl, eb]
      have k' := edge2 j hj (he.symm.trans ke)
      rcases k with rfl | rfl <;> rcases k' with rfl | rfl
      · rw [if_pos rfl]; exact ⟨rfl, rfl⟩
      · rw [if_neg ho, A1.1, A1.2, B1.1, B1.2]; exact ⟨rfl, rfl⟩
      · rw [if_neg (Ne.symm ho), A1.1, A1.2, B1.1, B1.2]; exact ⟨rfl, rfl⟩
      · rw [if_pos rfl]; exact ⟨rfl, rfl⟩
    · have k' : ¬ (j = a1 ∨ j = b1) := by
        intro k'
        apply k
        apply edge2 i hi
        rw [he]
        rcases k' with rfl | rfl
        exacts [rfl, eb]
      rw [(out i hi k).1, (out i hi k).2, (out j hj k').1, (out j hj k').2]
      exact O
  · rw [i9]
    have := ring m.rin m.tip (fun h => W (N h)) tipO (fun h l => Wlive _ ((hL _).1 (KF2.1 h ((hL h).2 l)))) hv.in_ring
    refine this.cast ?_ rfl
    funext h
    unfold tip
    rw [i1, i2]
  · rw [i10]
    have := ring m.rout m.heVertex W (fun h _ => W3 h) Wlive hv.out_ring
    refine this.cast ?_ rfl
    rw [i2]
  · rw [c1, c3, hv.cnt_he]
    refine count_congr (fun i hi => ?_)
    have := hL i
    unfold heL at this
    rw [c3] at this
    tauto
  · rw [c8, c9, i8]; exact hv.cnt_e
  · rw [c5, c6, hv.cnt_v]
    refine count_congr (fun i hi => ?_)
    have := vL' i
    unfold vL at this
    rw [c6] at this
    tauto
  · rw [c11, c12, hv.cnt_f]
    refine count_congr (fun i hi => ?_)
    have := fL' i
    unfold fL at this
    rw [c12] at this
    tauto

/-- `e` is a manifold interior edge between two triangles of different faces; with `preventSelfEdges`
no edge joins the two opposite vertices. -/
def Flippable (m : GMesh) (e : ℕ) (preventSelfEdges : Bool) : Prop :=
  let a := m.eHalfedge e
  let b := m.heSibling a
  a ≠ b ∧ (∀ h, m.heL h → m.heEdge h = e → h = a ∨ h = b) ∧ m.heNext (m.heNext (m.heNext a)) = a ∧ m.heNext (m.heNext (m.heNext b)) = b ∧
    m.heFace a ≠ m.heFace b ∧
    (preventSelfEdges = true → ∀ e', m.eL e' → ¬ m.Joins e' (m.heVertex (m.heNext (m.heNext a))) (m.heVertex (m.heNext (m.heNext b))))

/-- What a flip does.  `x` is the side that stays in the face of `a1`, `y` the side that leaves it; they
depend on whether the orientation bits of the edge agree, that is whether the faces are oriented
differently. -/
structure EdgeTurned (m m' : GMesh) (a1 a2 a3 b1 b2 b3 : ℕ) : Prop where
  next_a : if m.heOrient a1 = m.heOrient b1 then m'.heNext a1 = a3 ∧ m'.heNext a3 = b3 ∧ m'.heNext b3 = a1
    else m'.heNext a1 = b3 ∧ m'.heNext b3 = a2 ∧ m'.heNext a2 = a1
  next_b : if m.heOrient a1 = m.heOrient b1 then m'.heNext b1 = a2 ∧ m'.heNext a2 = b2 ∧ m'.heNext b2 = b1
    else m'.heNext b1 = a3 ∧ m'.heNext a3 = b2 ∧ m'.heNext b2 = b1
  next_other : ∀ h, h ≠ a1 → h ≠ a2 → h ≠ a3 → h ≠ b1 → h ≠ b2 → h ≠ b3 → m'.heNext h = m.heNext h
  vertex_a : m'.heVertex a1 = if m.heOrient a1 = m.heOrient b1 then m.heVertex b3 else m.heVertex a3
  vertex_b : m'.heVertex b1 = m.heVertex b3
  vertex_y : m'.heVertex (if m.heOrient a1 = m.heOrient b1 then a2 else a3) = m.heVertex a3
  vertex_b3 : m'.heVertex b3 = if m.heOrient a1 = m.heOrient b1 then m.tip b3 else m.heVertex b3
  vertex_other : ∀ h, h ≠ a1 → h ≠ b1 → h ≠ b3 → (h ≠ if m.heOrient a1 = m.heOrient b1 then a2 else a3) → m'.heVertex h = m.heVertex h
  face_y : m'.heFace (if m.heOrient a1 = m.heOrient b1 then a2 else a3) = m.heFace b1
  face_b3 : m'.heFace b3 = m.heFace a1
  face_other : ∀ h, h ≠ b3 → (h ≠ if m.heOrient a1 = m.heOrient b1 then a2 else a3) → m'.heFace h = m.heFace h
  orient : ∀ h, m'.heOrient h = if m.heOrient a1 = m.heOrient b1 ∧ (h = a2 ∨ h = b3) then !m.heOrient h else m.heOrient h
  edge : m'.heEdge = m.heEdge
  sibling : m'.heSibling = m.heSibling
  eHe : m'.eHalfedge = m.eHalfedge
  heL_iff : ∀ h, m'.heL h ↔ m.heL h
  vL_iff : ∀ v, m'.vL v ↔ m.vL v
  fL_iff : ∀ f, m'.fL f ↔ m.fL f
  counts : m'.nHe = m.nHe ∧ m'.nInt = m.nInt ∧ m'.nHeFill = m.nHeFill ∧ m'.nHeCap = m.nHeCap ∧
    m'.nV = m.nV ∧ m'.nVFill = m.nVFill ∧ m'.nVCap = m.nVCap ∧ m'.nE = m.nE ∧ m'.nEFill = m.nEFill ∧
    m'.nECap = m.nECap ∧ m'.nF = m.nF ∧ m'.nFFill = m.nFFill ∧ m'.nFCap = m.nFCap

/-- The same mesh up to `v.halfedge()` and the order of the vertex lists. -/
structure SameMesh (m m' : GMesh) : Prop where
  next : m'.heNext = m.heNext
  vertex : m'.heVertex = m.heVertex
  orient : m'.heOrient = m.heOrient
  face : m'.heFace = m.heFace
  edge : m'.heEdge = m.heEdge
  sibling : m'.heSibling = m.heSibling
  fHe : m'.fHalfedge = m.fHalfedge
  eHe : m'.eHalfedge = m.eHalfedge
  vL_iff : ∀ v, m'.vL v ↔ m.vL v
  counts : m'.nHe = m.nHe ∧ m'.nInt = m.nInt ∧ m'.nHeFill = m.nHeFill ∧ m'.nHeCap = m.nHeCap ∧
    m'.nV = m.nV ∧ m'.nVFill = m.nVFill ∧ m'.nVCap = m.nVCap ∧ m'.nE = m.nE ∧ m'.nEFill = m.nEFill ∧
    m'.nECap = m.nECap ∧ m'.nF = m.nF ∧ m'.nFFill = m.nFFill ∧ m'.nFCap = m.nFCap

theorem SameMesh.rfl' (m : GMesh) : SameMesh m m :=
  ⟨rfl, rfl, rfl, rfl, rfl, rfl, rfl, rfl, fun _ => Iff.rfl, rfl, rfl, rfl, rfl, rfl, rfl, rfl, rfl, rfl, rfl, rfl, rfl, rfl⟩

theorem Flipped.turned {m m' : GMesh} {a1 a2 a3 b1 b2 b3 : ℕ} (h : Flipped m m' a1 a2 a3 b1 b2 b3) (ho : m.heOrient a1 ≠ m.heOrient b1)
    (n : a3 ≠ a1 ∧ a3 ≠ b1 ∧ b3 ≠ a1 ∧ b3 ≠ b1) : EdgeTurned m m' a1 a2 a3 b1 b2 b3 := by
  refine ⟨?_, ?_, h.next_other, ?_, h.vertex.2, ?_, ?_, fun z z1 z2 _ _ => h.vertex_other z z1 z2, ?_, h.face.2, fun z z1 z2 => h.face_other z (by rwa [if_neg ho] at z2) z1,
    fun z => ?_, h.edge, h.sibling, h.eHe, h.heL_iff, h.vL_iff, h.fL_iff, h.counts⟩
  · rw [if_neg ho]; exact ⟨h.next.1, h.next.2.1, h.next.2.2.1⟩
  · rw [if_neg ho]; exact h.next.2.2.2
  · rw [if_neg ho]; exact h.vertex.1
  · rw [if_neg ho]; exact h.vertex_other _ n.1 n.2.1
  · rw [if_neg ho]; exact h.vertex_other _ n.2.2.1 n.2.2.2
  · rw [if_neg ho]; exact h.face.1
  · rw [if_neg (fun k => ho k.1), h.orient]

/-- Inverting a face exchanges the ends of some edges. -/
theorem Reversed.joins {m m' : GMesh} {f : ℕ} (hv : m.Valid) (hr : Reversed m m' f) {e : ℕ} (he : m.eL e) (v w : ℕ) : m'.Joins e v w ↔ m.Joins e v w := by
  obtain ⟨l, -⟩ := hv.e_he e he
  unfold Joins firstVertex secondVertex
  rw [hr.eHe]
  by_cases c : m.heFace (m.eHalfedge e) = f
  · rw [hr.vertex _ l c, hr.tip _ l c]
    tauto
  · have o := hr.other (m.eHalfedge e) (fun k => c k.2)
    have o' := hr.other (m.heNext (m.eHalfedge e)) (fun k => c ((hv.face_next l).symm.trans k.2))
    unfold GMesh.tip
    rw [o.1, o.2.1, o'.1]

theorem Reversed.eL {m m' : GMesh} {f : ℕ} (hr : Reversed m m' f) (e : ℕ) : m'.eL e ↔ m.eL e := by
  unfold GMesh.eL
  rw [hr.eHe, hr.counts.2.2.2.2.2.2.2.2.1]

theorem Reversed.fL {m m' : GMesh} {f : ℕ} (hr : Reversed m m' f) (g : ℕ) : m'.fL g ↔ m.fL g := by
  unfold GMesh.fL
  rw [hr.fHe, hr.counts.2.2.2.2.2.2.2.2.2.2.2.1]

/-- The six halfedges of a quad are different. -/
theorem Quad.ne {m : GMesh} (hv : m.Valid) {a1 a2 a3 b1 b2 b3 : ℕ} (q : m.Quad a1 a2 a3 b1 b2 b3) :
    ([a1, a2, a3, b1, b2, b3] : List ℕ).Nodup ∧ (∀ h ∈ [a1, a2, a3], m.heL h ∧ m.heFace h = m.heFace a1) ∧ (∀ h ∈ [b1, b2, b3], m.heL h ∧ m.heFace h = m.heFace b1) := by
  obtain ⟨la, lb, na1, na2, na3, nb1, nb2, nb3, sa, sb, oa, ob, fc⟩ := q
  have ma := tri_mem hv la na1 na2 na3
  have mb := tri_mem hv lb nb1 nb2 nb3
  have A : ∀ h ∈ [a1, a2, a3], m.heL h ∧ m.heFace h = m.heFace a1 := fun h z => (ma h).2 (by simpa using z)
  have B : ∀ h ∈ [b1, b2, b3], m.heL h ∧ m.heFace h = m.heFace b1 := fun h z => (mb h).2 (by simpa using z)
  have d12 : a1 ≠ a2 := oa.symm
  have d13 : a1 ≠ a3 := fun z => d12 (by rw [← na1, z, na3, ← z])
  have d23 : a2 ≠ a3 := fun z => d12 (by rw [← na3, ← z, na2, z])
  have e12 : b1 ≠ b2 := ob.symm
  have e13 : b1 ≠ b3 := fun z => e12 (by rw [← nb1, z, nb3, ← z])
  have e23 : b2 ≠ b3 := fun z => e12 (by rw [← nb3, ← z, nb2, z])
  refine ⟨?_, A, B⟩
  have : ([a1, a2, a3] ++ [b1, b2, b3]).Nodup := by
    refine List.nodup_append.2 ⟨by simp [d12, d13, d23], by simp [e12, e13, e23], fun x hx y hy z => fc ?_⟩
    rw [← (A x hx).2, z, (B y hy).2]
  exact this

/-- The loop that looks for an existing edge. -/
theorem prevent_ok {m : GMesh} (hv : m.Valid) {vc : ℕ} (hc : m.vL vc) (vd : ℕ) :
    ∃ vs, m.adjacentVertices vc = .ok vs ∧ ((vs.any fun v => v == vd) = true ↔ ∃ e', m.eL e' ∧ m.Joins e' vc vd) := by
  obtain ⟨W, w1, w2⟩ := C77_adjacent hv hc
  refine ⟨W, w1, ?_⟩
  rw [← w2, List.any_eq_true]
  constructor
  · rintro ⟨x, x1, x2⟩
    rwa [← beq_iff_eq.1 x2]
  · intro k
    exact ⟨vd, k, by simp⟩

/-- One call of `flip` on faces that are oriented alike. -/
theorem Quad.flipRec_ok {m : GMesh} (hv : m.Valid) {e a1 a2 a3 b1 b2 b3 : ℕ} (q : m.Quad a1 a2 a3 b1 b2 b3) (he : m.eHalfedge e = a1)
    (ho : m.heOrient a1 ≠ m.heOrient b1) (n : ℕ) (p : Bool) :
    ∃ r, flipRec (n + 1) m e p = .ok (if r then m.flipAt a1 a2 a3 b1 b2 b3 else m, r) ∧
      (r = true ↔ (p = true → ∀ e', m.eL e' → ¬ m.Joins e' (m.heVertex a3) (m.heVertex b3))) := by
  obtain ⟨nd, A, B⟩ := q.ne hv
  have la3 := (A a3 (by simp)).1
  simp only [List.nodup_cons, List.mem_cons, List.not_mem_nil, or_false, not_or] at nd
  obtain ⟨la, lb, na1, na2, na3, nb1, nb2, nb3, sa, sb, oa, ob, fc⟩ := q
  have ib : m.isBoundary e = false := by
    unfold isBoundary
    rw [he, sa]
    simpa using Ne.symm nd.1.2.2.1
  unfold flipRec
  rw [ib, he]
  simp only [sa, na1, na2, na3, nb1, nb2, nb3, sb, ho, ne_eq, not_true_eq_false, if_false, Bool.false_eq_true]
  rw [if_neg (by
    rintro (k | k)
    · exact nd.2.1.2.1 k
    · exact nd.1.2.2.2.1 k.symm)]
  cases p with
  | false => exact ⟨true, rfl, by simp⟩
  | true =>
    obtain ⟨vs, v1, v2⟩ := prevent_ok hv (hv.vertex_live _ la3) (m.heVertex b3)
    rw [if_pos rfl, v1]
    simp only [bind, Except.bind]
    by_cases c : (vs.any fun v => v == m.heVertex b3) = true
    · rw [if_pos c]
      obtain ⟨e', e1, e2⟩ := v2.1 c
      exact ⟨false, rfl, ⟨fun k => (by cases k), fun k => absurd e2 (k (by simp) e' e1)⟩⟩
    · rw [if_neg c]
      exact ⟨true, rfl, ⟨fun _ _ e' e1 e2 => c (v2.2 ⟨e', e1, e2⟩), fun _ => rfl⟩⟩

theorem Quad.next_facts {m : GMesh} {a1 a2 a3 b1 b2 b3 : ℕ} (q : m.Quad a1 a2 a3 b1 b2 b3) :
    m.heL b1 ∧ m.heNext a1 = a2 ∧ m.heNext a2 = a3 ∧ m.heNext a3 = a1 ∧ m.heNext b1 = b2 ∧ m.heNext b2 = b3 ∧ m.heNext b3 = b1 ∧
      m.heSibling a1 = b1 ∧ m.heSibling b1 = a1 ∧ a2 ≠ a1 ∧ b2 ≠ b1 ∧ m.heFace a1 ≠ m.heFace b1 :=
  ⟨q.lb, q.na1, q.na2, q.na3, q.nb1, q.nb2, q.nb3, q.sa, q.sb, q.oa, q.ob, q.face⟩

/-- The call that inverts a face, flips and inverts again. -/
theorem Quad.flipRec_inv {m : GMesh} (hv : m.Valid) {e a1 a2 a3 b1 b2 b3 : ℕ} (q : m.Quad a1 a2 a3 b1 b2 b3) (he : m.eHalfedge e = a1)
    (ho : m.heOrient a1 = m.heOrient b1) (n : ℕ) (p : Bool) :
    ∃ m' r, flipRec (n + 2) m e p = .ok (m', r) ∧ m'.Valid ∧ (r = false → SameMesh m m') ∧ (r = true → EdgeTurned m m' a1 a2 a3 b1 b2 b3) ∧
      (r = true ↔ (p = true → ∀ e', m.eL e' → ¬ m.Joins e' (m.heVertex a3) (m.heVertex b3))) := by
  obtain ⟨nd, A, B⟩ := q.ne hv
  have la := q.la
  have la2 := A a2 (by simp)
  have la3 := A a3 (by simp)
  have lb2 := B b2 (by simp)
  have lb3 := B b3 (by simp)
  have fL := hv.face_live a1 la
  obtain ⟨m1, r1, R1, v1⟩ := C26 hv fL
  have hn := q.next_facts
  obtain ⟨lb, na1, na2, na3, nb1, nb2, nb3, sa, sb, oa, ob, fc⟩ := hn
  have nd' := nd
  simp only [List.nodup_cons, List.mem_cons, List.not_mem_nil, or_false, not_or] at nd
  obtain ⟨⟨d12, d13, x11, x12, x13⟩, ⟨d23, x21, x22, x23⟩, ⟨x31, x32, x33⟩, ⟨e12, e13⟩, e23, -⟩ := nd
  -- the mesh with the first face inverted
  have nB : ∀ h, m.heFace h = m.heFace b1 → ¬ (m.heL h ∧ m.heFace h = m.heFace a1) := fun h k k' => fc (k'.2.symm.trans k)
  have q1 : m1.Quad a1 a3 a2 b1 b2 b3 := by
    refine ⟨(R1.heL hv a1).2 la, (R1.heL hv b1).2 lb, ?_, ?_, ?_, ?_, ?_, ?_, ?_, ?_, Ne.symm d13, ob, ?_⟩
    · have := R1.next a3 la3.1 la3.2
      rwa [na3] at this
    · have := R1.next a2 la2.1 la2.2
      rwa [na2] at this
    · have := R1.next a1 la rfl
      rwa [na1] at this
    · rw [(R1.other b1 (nB b1 rfl)).2.1, nb1]
    · rw [(R1.other b2 (nB b2 lb2.2)).2.1, nb2]
    · rw [(R1.other b3 (nB b3 lb3.2)).2.1, nb3]
    · rw [R1.sibling, sa]
    · rw [R1.sibling, sb]
    · rw [R1.face]; exact fc
  have ho1 : m1.heOrient a1 ≠ m1.heOrient b1 := by
    rw [R1.orient a1 la rfl, (R1.other b1 (nB b1 rfl)).2.2, ho]
    simp
  have vc1 : m1.heVertex a2 = m.heVertex a3 := by rw [R1.vertex a2 la2.1 la2.2, GMesh.tip, na2]
  have vd1 : m1.heVertex b3 = m.heVertex b3 := (R1.other b3 (nB b3 lb3.2)).1
  obtain ⟨r, f1, f2⟩ := q1.flipRec_ok v1 (e := e) (by rw [R1.eHe, he]) ho1 n p
  have f2' : r = true ↔ (p = true → ∀ e', m.eL e' → ¬ m.Joins e' (m.heVertex a3) (m.heVertex b3)) := by
    rw [f2, vc1, vd1]
    refine imp_congr_right fun _ => forall_congr' fun e' => ⟨fun k z => ?_, fun k z => ?_⟩
    · rw [← R1.joins hv z]; exact k ((R1.eL e').2 z)
    · rw [R1.joins hv ((R1.eL e').1 z)]; exact k ((R1.eL e').1 z)
  have ib : m.isBoundary e = false := by
    unfold isBoundary
    rw [he, sa]
    simpa using Ne.symm x11
  have head : flipRec (n + 2) m e p = (do
      let (m2, r) ← flipRec (n + 1) m1 e p
      let m3 ← m2.invertOrientation (m2.heFace a1)
      .ok (m3, r)) := by
    rw [flipRec, ib, he]
    simp only [sa, na1, na2, na3, nb1, nb2, nb3, sb, ho, ne_eq, not_true_eq_false, if_false, if_true, Bool.false_eq_true]
    rw [if_neg (by
      rintro (k | k)
      · exact x21 k
      · exact x12 k.symm), r1]
    rfl
  rw [head, f1]
  simp only [bind, Except.bind]
  cases r with
  | false =>
    simp only [Bool.false_eq_true, if_false]
    rw [R1.face]
    obtain ⟨m3, r3, R3, v3⟩ := C26 v1 ((R1.fL _).2 fL)
    rw [r3]
    have T := C26_twice hv fL r1 r3
    refine ⟨m3, false, rfl, v3, fun _ => ?_, fun k => (by cases k), by rw [← f2']⟩
    refine ⟨T.1, T.2.1, T.2.2.1, T.2.2.2.1, T.2.2.2.2.1, T.2.2.2.2.2.1, T.2.2.2.2.2.2.1, T.2.2.2.2.2.2.2, fun v => (R3.vlive v).trans (R1.vlive v), ?_⟩
    obtain ⟨k1, k2, k3, k4, k5, k6, k7, k8, k9, k10, k11, k12, k13⟩ := R1.counts
    obtain ⟨j1, j2, j3, j4, j5, j6, j7, j8, j9, j10, j11, j12, j13⟩ := R3.counts
    exact ⟨j1.trans k1, j2.trans k2, j3.trans k3, j4.trans k4, j5.trans k5, j6.trans k6, j7.trans k7, j8.trans k8, j9.trans k9, j10.trans k10, j11.trans k11, j12.trans k12, j13.trans k13⟩
  | true =>
    simp only [if_true]
    obtain ⟨F, v2⟩ := q1.flipAt_ok v1 ho1
    generalize m1.flipAt a1 a3 a2 b1 b2 b3 = m2 at F v2 f1 ⊢
    have fa2 : m2.heFace a1 = m.heFace a1 := by rw [F.face_other _ d12 x13, R1.face]
    obtain ⟨m3, r3, R3, v3⟩ := C26 v2 (f := m2.heFace a1) (by rw [fa2, F.fL_iff, R1.fL]; exact fL)
    rw [r3]
    have L2 : ∀ h, m2.heL h ↔ m.heL h := fun h => (F.heL_iff h).trans (R1.heL hv h)
    obtain ⟨g1, g2, g3, g4, g5, g6⟩ := F.next
    -- the face of a1 in the middle
    have mem : ∀ h, (m2.heL h ∧ m2.heFace h = m2.heFace a1) ↔ h = a1 ∨ h = b3 ∨ h = a3 := tri_mem v2 ((L2 a1).2 la) g1 g2 g3
    have out : ∀ h, h ≠ a1 → h ≠ b3 → h ≠ a3 → m3.heVertex h = m2.heVertex h ∧ m3.heNext h = m2.heNext h ∧ m3.heOrient h = m2.heOrient h := by
      intro h k1 k2 k3
      apply R3.other
      rw [mem]
      simp [k1, k2, k3]
    have inA := (mem a1).2 (by simp)
    have inB := (mem b3).2 (by simp)
    have inC := (mem a3).2 (by simp)
    have W2 : ∀ h, h ≠ a1 → h ≠ b1 → m2.heVertex h = m1.heVertex h := F.vertex_other
    refine ⟨m3, true, rfl, v3, fun k => (by cases k), fun _ => ?_, by rw [← f2']⟩
    refine ⟨?_, ?_, ?_, ?_, ?_, ?_, ?_, ?_, ?_, ?_, ?_, ?_, ?_, ?_, ?_, ?_, ?_, ?_, ?_⟩
    · rw [if_pos ho]
      refine ⟨?_, ?_, ?_⟩
      · have := R3.next a3 inC.1 inC.2
        rwa [g3] at this
      · have := R3.next b3 inB.1 inB.2
        rwa [g2] at this
      · have := R3.next a1 inA.1 rfl
        rwa [g1] at this
    · rw [if_pos ho, (out b1 (Ne.symm x11) e13 (Ne.symm x31)).2.1, (out a2 (Ne.symm d12) x23 d23).2.1, (out b2 (Ne.symm x12) e23 (Ne.symm x32)).2.1]
      exact ⟨g4, g5, g6⟩
    · intro h k1 k2 k3 k4 k5 k6
      rw [(out h k1 k6 k3).2.1, F.next_other h k1 k3 k2 k4 k5 k6]
      refine (R1.other h (fun k => ?_)).2.1
      rcases (tri_mem hv la na1 na2 na3 h).1 k with k | k | k
      exacts [k1 k, k2 k, k3 k]
    · rw [if_pos ho, R3.vertex a1 inA.1 rfl, GMesh.tip, g1, W2 _ (Ne.symm x13) (Ne.symm e13)]
      exact vd1
    · rw [(out b1 (Ne.symm x11) e13 (Ne.symm x31)).1, F.vertex.2]
      exact vd1
    · rw [if_pos ho, (out a2 (Ne.symm d12) x23 d23).1, W2 _ (Ne.symm d12) x21]
      exact vc1
    · rw [if_pos ho, R3.vertex b3 inB.1 inB.2, GMesh.tip, g2, W2 _ (Ne.symm d13) x31, R1.vertex a3 la3.1 la3.2]
      unfold GMesh.tip
      rw [na3, nb3]
      have := hv.orient a1 b1 la lb (by rw [← sa, hv.edge_sib la])
      unfold aligned at this
      rw [if_pos ho] at this
      exact this.1
    · intro h k1 k2 k3 k4
      rw [if_pos ho] at k4
      by_cases k : h = a3
      · rw [k, R3.vertex a3 inC.1 inC.2, GMesh.tip, g3, F.vertex.1]
        exact vc1
      · rw [(out h k1 k3 k).1, W2 h k1 k2]
        refine (R1.other h (fun z => ?_)).1
        rcases (tri_mem hv la na1 na2 na3 h).1 z with z | z | z
        exacts [k1 z, k4 z, k z]
    · rw [if_pos ho, R3.face, F.face.1, R1.face]
    · rw [R3.face, F.face.2, R1.face]
    · intro h k1 k2
      rw [if_pos ho] at k2
      rw [R3.face, F.face_other h k2 k1, R1.face]
    · intro h
      by_cases k1 : h = a1
      · rw [k1, R3.orient a1 inA.1 rfl, F.orient, R1.orient a1 la rfl, if_neg (by rintro ⟨-, k | k⟩; exacts [d12 k, x13 k])]
        simp
      · by_cases k2 : h = a3
        · rw [k2, R3.orient a3 inC.1 inC.2, F.orient, R1.orient a3 la3.1 la3.2, if_neg (by rintro ⟨-, k | k⟩; exacts [d23 k.symm, x33 k])]
          simp
        · by_cases k3 : h = b3
          · rw [k3, R3.orient b3 inB.1 inB.2, F.orient, (R1.other b3 (nB b3 lb3.2)).2.2, if_pos ⟨ho, .inr rfl⟩]
          · rw [(out h k1 k3 k2).2.2, F.orient]
            by_cases k4 : h = a2
            · rw [k4, R1.orient a2 la2.1 la2.2, if_pos ⟨ho, .inl rfl⟩]
            · rw [if_neg (by rintro ⟨-, k | k⟩; exacts [k4 k, k3 k])]
              refine (R1.other h (fun z => ?_)).2.2
              rcases (tri_mem hv la na1 na2 na3 h).1 z with z | z | z
              exacts [k1 z, k4 z, k2 z]
    · rw [R3.edge, F.edge, R1.edge]
    · rw [R3.sibling, F.sibling, R1.sibling]
    · rw [R3.eHe, F.eHe, R1.eHe]
    · exact fun h => (R3.heL v2 h).trans (L2 h)
    · exact fun v => (R3.vlive v).trans ((F.vL_iff v).trans (R1.vlive v))
    · exact fun f => (R3.fL f).trans ((F.fL_iff f).trans (R1.fL f))
    · obtain ⟨k1, k2, k3, k4, k5, k6, k7, k8, k9, k10, k11, k12, k13⟩ := R1.counts
      obtain ⟨l1, l2, l3, l4, l5, l6, l7, l8, l9, l10, l11, l12, l13⟩ := F.counts
      obtain ⟨j1, j2, j3, j4, j5, j6, j7, j8, j9, j10, j11, j12, j13⟩ := R3.counts
      exact ⟨j1.trans (l1.trans k1), j2.trans (l2.trans k2), j3.trans (l3.trans k3), j4.trans (l4.trans k4), j5.trans (l5.trans k5), j6.trans (l6.trans k6), j7.trans (l7.trans k7),
        j8.trans (l8.trans k8), j9.trans (l9.trans k9), j10.trans (l10.trans k10), j11.trans (l11.trans k11), j12.trans (l12.trans k12), j13.trans (l13.trans k13)⟩

/-- The first five conditions of `Flippable` make a quad. -/
theorem quad_iff {m : GMesh} (hv : m.Valid) {e : ℕ} (he : m.eL e) (h1 : ∀ h, m.heL h → m.heNext h ≠ h) (p : Bool) :
    m.Flippable e p ↔ ∃ a2 a3 b1 b2 b3, m.Quad (m.eHalfedge e) a2 a3 b1 b2 b3 ∧
      (p = true → ∀ e', m.eL e' → ¬ m.Joins e' (m.heVertex a3) (m.heVertex b3)) := by
  obtain ⟨la, ea⟩ := hv.e_he e he
  have lb := hv.sib_live _ la
  constructor
  · rintro ⟨ab, mem, ta, tb, fc, pr⟩
    refine ⟨_, _, _, _, _, ⟨la, lb, rfl, rfl, ta, rfl, rfl, tb, rfl, ?_, h1 _ la, h1 _ lb, fc⟩, pr⟩
    rcases mem _ (hv.sib_live _ lb) (by rw [hv.edge_sib lb, hv.edge_sib la, ea]) with k | k
    · exact k
    · exact absurd (hv.edges.inj (eKey_ne.2 lb) (eKey_ne.2 la) k).symm ab
  · rintro ⟨a2, a3, b1, b2, b3, q, pr⟩
    obtain ⟨nd, -, -⟩ := q.ne hv
    simp only [List.nodup_cons, List.mem_cons, List.not_mem_nil, or_false, not_or] at nd
    obtain ⟨-, -, n1, n2, n3, n4, n5, n6, sa, sb, oa, ob, fc⟩ := q
    unfold Flippable
    simp only
    rw [sa, n1, n2, n3, n4, n5, n6]
    refine ⟨nd.1.2.2.1, fun h l k => ?_, rfl, rfl, fc, pr⟩
    refine ((hv.edge_iff _ h la l).1 (ea.trans k.symm)).mem (fun z => z = m.eHalfedge e ∨ z = b1) (.inl rfl) ?_
    rintro z (rfl | rfl)
    exacts [.inr sa, .inl sb]

/-- **C78: flipping an edge of a general mesh.**  `flip` always returns, leaves a valid mesh, and says
true just for the edges described by `Flippable`; those it turns, otherwise the mesh stays the same. -/
theorem C78 {m : GMesh} (hv : m.Valid) {e : ℕ} (he : m.eL e) (h1 : ∀ h, m.heL h → m.heNext h ≠ h) (p : Bool) :
    ∃ m' r, m.flip e p = .ok (m', r) ∧ m'.Valid ∧ (r = true ↔ m.Flippable e p) ∧ (r = false → SameMesh m m') ∧
      (r = true → EdgeTurned m m' (m.eHalfedge e) (m.heNext (m.eHalfedge e)) (m.heNext (m.heNext (m.eHalfedge e)))
        (m.heSibling (m.eHalfedge e)) (m.heNext (m.heSibling (m.eHalfedge e))) (m.heNext (m.heNext (m.heSibling (m.eHalfedge e))))) := by
  obtain ⟨la, ea⟩ := hv.e_he e he
  have lb := hv.sib_live _ la
  by_cases Q : ∃ a2 a3 b1 b2 b3, m.Quad (m.eHalfedge e) a2 a3 b1 b2 b3
  · obtain ⟨a2, a3, b1, b2, b3, q⟩ := Q
    have iff : (p = true → ∀ e', m.eL e' → ¬ m.Joins e' (m.heVertex a3) (m.heVertex b3)) ↔ m.Flippable e p := by
      rw [quad_iff hv he h1]
      constructor
      · exact fun k => ⟨_, _, _, _, _, q, k⟩
      · rintro ⟨c2, c3, d1, d2, d3, q', k⟩
        obtain rfl : a3 = c3 := by rw [← q.na2, ← q.na1, ← q'.na2, ← q'.na1]
        obtain rfl : b3 = d3 := by rw [← q.nb2, ← q.nb1, ← q.sa, ← q'.nb2, ← q'.nb1, ← q'.sa]
        exact k
    rw [q.sa, q.na1, q.na2, q.nb1, q.nb2]
    by_cases ho : m.heOrient (m.eHalfedge e) = m.heOrient b1
    · obtain ⟨m', r, k1, k2, k3, k4, k5⟩ := q.flipRec_inv hv rfl ho 0 p
      exact ⟨m', r, k1, k2, k5.trans iff, k3, k4⟩
    · obtain ⟨r, k1, k2⟩ := q.flipRec_ok hv rfl ho 1 p
      obtain ⟨F, V⟩ := q.flipAt_ok hv ho
      refine ⟨_, r, k1, ?_, k2.trans iff, ?_, ?_⟩
      · cases r
        exacts [hv, V]
      · intro k
        rw [k]
        exact SameMesh.rfl' m
      · intro k
        rw [k]
        obtain ⟨nd, -, -⟩ := q.ne hv
        simp only [List.nodup_cons, List.mem_cons, List.not_mem_nil, or_false, not_or] at nd
        exact F.turned ho ⟨Ne.symm nd.1.2.1, nd.2.2.1.1, Ne.symm nd.1.2.2.2.2, Ne.symm nd.2.2.2.1.2⟩
  · have no : ¬ m.Flippable e p := by
      rw [quad_iff hv he h1]
      rintro ⟨a, b, c, d, f, q, -⟩
      exact Q ⟨a, b, c, d, f, q⟩
    suffices h : m.flip e p = .ok (m, false) from
      ⟨m, false, h, hv, ⟨fun k => (by cases k), fun k => absurd k no⟩, fun _ => SameMesh.rfl' m, fun k => (by cases k)⟩
    unfold flip flipRec
    simp only
    split_ifs with k1 k2 k3 k4 k5
    all_goals first | rfl | exfalso
    all_goals
      simp only [not_or, not_not, ne_eq] at k2 k3 k4 k5
      apply Q
      refine ⟨_, _, _, _, _, ⟨la, lb, rfl, rfl, k2, rfl, rfl, k3, rfl, k4, h1 _ la, h1 _ lb, fun fc => ?_⟩⟩
      rcases (tri_mem hv la rfl rfl k2 _).1 ⟨lb, fc.symm⟩ with k | k | k
      · apply k1
        unfold isBoundary
        rw [k]
        simp
      · exact k5.1 k.symm
      · apply k5.2
        rw [k]
        exact k2

theorem Joins.determined {m m' : GMesh} {e x y : ℕ} (h : m.Joins e x y) (h' : m'.Joins e x y) (v w : ℕ) : m'.Joins e v w ↔ m.Joins e v w := by
  unfold Joins at *
  generalize m.firstVertex e = a at *
  generalize m.secondVertex e = b at *
  generalize m'.firstVertex e = c at *
  generalize m'.secondVertex e = d at *
  omega

/-- Both ends of every halfedge off the flipped edge stay, and the opposite vertices become the ends of the edge. -/
theorem EdgeTurned.ends {m m' : GMesh} (hv : m.Valid) {a1 a2 a3 b1 b2 b3 : ℕ} (q : m.Quad a1 a2 a3 b1 b2 b3) (T : EdgeTurned m m' a1 a2 a3 b1 b2 b3) :
    (∀ h, m.heL h → h ≠ a1 → h ≠ b1 → (m'.heVertex h = m.heVertex h ∧ m'.tip h = m.tip h) ∨ (m'.heVertex h = m.tip h ∧ m'.tip h = m.heVertex h)) ∧
    ((m'.heVertex a1 = m.heVertex a3 ∧ m'.tip a1 = m.heVertex b3) ∨ (m'.heVertex a1 = m.heVertex b3 ∧ m'.tip a1 = m.heVertex a3)) ∧
    m'.heVertex (m'.heNext (m'.heNext a1)) = m.heVertex b1 ∧ m'.heVertex (m'.heNext (m'.heNext b1)) = m.tip b1 ∧
    m'.heNext (m'.heNext (m'.heNext a1)) = a1 ∧ m'.heNext (m'.heNext (m'.heNext b1)) = b1 ∧ m'.heFace a1 = m.heFace a1 ∧ m'.heFace b1 = m.heFace b1 := by
  obtain ⟨nd, A, B⟩ := q.ne hv
  have la2 := A a2 (by simp)
  have la3 := A a3 (by simp)
  have lb2 := B b2 (by simp)
  have lb3 := B b3 (by simp)
  have la := q.la
  obtain ⟨lb, na1, na2, na3, nb1, nb2, nb3, sa, sb, oa, ob, fc⟩ := q.next_facts
  simp only [List.nodup_cons, List.mem_cons, List.not_mem_nil, or_false, not_or] at nd
  obtain ⟨⟨d12, d13, x11, x12, x13⟩, ⟨d23, x21, x22, x23⟩, ⟨x31, x32, x33⟩, ⟨e12, e13⟩, e23, -⟩ := nd
  have al := hv.orient a1 b1 la lb (by rw [← sa, hv.edge_sib la])
  have main : ∀ h, m.heL h → h ≠ a1 → h ≠ a2 → h ≠ a3 → h ≠ b1 → h ≠ b2 → h ≠ b3 → m'.heVertex h = m.heVertex h ∧ m'.tip h = m.tip h := by
    intro h l k1 k2 k3 k4 k5 k6
    have other : ∀ g, g ≠ a1 → g ≠ a2 → g ≠ a3 → g ≠ b1 → g ≠ b2 → g ≠ b3 → m'.heVertex g = m.heVertex g := by
      intro g g1 g2 g3 g4 g5 g6
      exact T.vertex_other g g1 g4 g6 (by split_ifs; exacts [g2, g3])
    refine ⟨other h k1 k2 k3 k4 k5 k6, ?_⟩
    unfold tip
    rw [T.next_other h k1 k2 k3 k4 k5 k6]
    have inj : ∀ {g g'}, m.heL g → m.heNext g = g' → h ≠ g → m.heNext h ≠ g' := fun lg e1 k k' => k (hv.next_inj l lg (k'.trans e1.symm))
    exact other _ (inj la3.1 na3 k3) (inj la na1 k1) (inj la2.1 na2 k2) (inj lb3.1 nb3 k6) (inj lb nb1 k4) (inj lb2.1 nb2 k5)
  have na := T.next_a
  have nb := T.next_b
  have wa := T.vertex_a
  have wb := T.vertex_b
  have wy := T.vertex_y
  have w3 := T.vertex_b3
  have wo := T.vertex_other
  have fo := T.face_other
  unfold aligned tip at al
  unfold tip at w3
  rw [na1, nb1] at al
  rw [nb3] at w3
  have four : ∀ P : ℕ → Prop, P a2 → P a3 → P b2 → P b3 → (∀ h, m.heL h → h ≠ a1 → h ≠ a2 → h ≠ a3 → h ≠ b1 → h ≠ b2 → h ≠ b3 → P h) → ∀ h, m.heL h → h ≠ a1 → h ≠ b1 → P h := by
    intro P p1 p2 p3 p4 p5 h l k1 k2
    by_cases z1 : h = a2
    · rw [z1]; exact p1
    by_cases z2 : h = a3
    · rw [z2]; exact p2
    by_cases z3 : h = b2
    · rw [z3]; exact p3
    by_cases z4 : h = b3
    · rw [z4]; exact p4
    exact p5 h l k1 z1 z2 k2 z3 z4
  by_cases s : m.heOrient a1 = m.heOrient b1
  · simp only [if_pos s] at na nb wa wy w3 wo fo al
    have wb2 := wo b2 (Ne.symm x12) (Ne.symm e12) e23 (Ne.symm x22)
    have wa3 := wo a3 (Ne.symm d13) x31 x33 (Ne.symm d23)
    refine ⟨four _ ?_ ?_ ?_ ?_ (fun h l k1 k2 k3 k4 k5 k6 => .inl (main h l k1 k2 k3 k4 k5 k6)), ?_, ?_, ?_, ?_, ?_, fo a1 x13 d12, fo b1 e13 (Ne.symm x21)⟩
    · right
      unfold tip
      rw [nb.2.1, wb2, wy, na2]
      exact ⟨rfl, al.2.symm⟩
    · left
      unfold tip
      rw [na.2.1, w3, na3]
      exact ⟨wa3, al.1.symm⟩
    · left
      unfold tip
      rw [nb.2.2, wb, nb2]
      exact ⟨wb2, rfl⟩
    · right
      unfold tip
      rw [na.2.2, wa, nb3]
      exact ⟨w3, rfl⟩
    · right
      unfold tip
      rw [na.1]
      exact ⟨wa, wa3⟩
    · rw [na.1, na.2.1]; exact w3
    · rw [nb.1, nb.2.1, wb2, tip, nb1]
    · rw [na.1, na.2.1, na.2.2]
    · rw [nb.1, nb.2.1, nb.2.2]
  · simp only [if_neg s] at na nb wa wy w3 wo fo al
    have wb2 := wo b2 (Ne.symm x12) (Ne.symm e12) e23 (Ne.symm x32)
    have wa2 := wo a2 (Ne.symm d12) x21 x23 d23
    refine ⟨four _ ?_ ?_ ?_ ?_ (fun h l k1 k2 k3 k4 k5 k6 => .inl (main h l k1 k2 k3 k4 k5 k6)), ?_, ?_, ?_, ?_, ?_, fo a1 x13 d13, fo b1 e13 (Ne.symm x31)⟩
    · left
      unfold tip
      rw [na.2.2, wa, na2]
      exact ⟨wa2, rfl⟩
    · left
      unfold tip
      rw [nb.2.1, wb2, na3]
      exact ⟨wy, al.1.symm⟩
    · left
      unfold tip
      rw [nb.2.2, wb, nb2]
      exact ⟨wb2, rfl⟩
    · left
      unfold tip
      rw [na.2.1, wa2, nb3]
      exact ⟨w3, al.2⟩
    · left
      unfold tip
      rw [na.1]
      exact ⟨wa, w3⟩
    · rw [na.1, na.2.1, wa2]; exact al.2
    · rw [nb.1, nb.2.1, wb2, tip, nb1]
    · rw [na.1, na.2.1, na.2.2]
    · rw [nb.1, nb.2.1, nb.2.2]

/-- **C78, ends:** the flipped edge joins the two opposite vertices, all other edges keep their ends. -/
theorem C78_ends {m m' : GMesh} (hv : m.Valid) {e : ℕ} (he : m.eL e) (h1 : ∀ h, m.heL h → m.heNext h ≠ h) {p : Bool} (hf : m.flip e p = .ok (m', true)) :
    m'.Joins e (m.heVertex (m.heNext (m.heNext (m.eHalfedge e)))) (m.heVertex (m.heNext (m.heNext (m.heSibling (m.eHalfedge e))))) ∧
    ∀ e', m.eL e' → e' ≠ e → ∀ v w, m'.Joins e' v w ↔ m.Joins e' v w := by
  obtain ⟨m1, r, k1, k2, k3, -, k4⟩ := C78 hv he h1 p
  rw [hf] at k1
  injection k1 with k1
  injection k1 with k1 k1'
  subst k1 k1'
  have T := k4 rfl
  obtain ⟨c2, c3, d1, d2, d3, q, -⟩ := (quad_iff hv he h1 p).1 (k3.1 rfl)
  rw [q.sa, q.na1, q.na2, q.nb1, q.nb2] at T ⊢
  have E := T.ends hv q
  obtain ⟨la, ea⟩ := hv.e_he e he
  refine ⟨?_, fun e' he' ne v w => ?_⟩
  · unfold Joins firstVertex secondVertex
    rw [T.eHe]
    exact E.2.1.imp id (fun k => ⟨k.1, k.2⟩)
  · obtain ⟨l', ee⟩ := hv.e_he e' he'
    have := E.1 (m.eHalfedge e') l' (fun k => ne (by rw [← ee, k, ea])) (fun k => ne (by rw [← ee, k, ← q.sa, hv.edge_sib la, ea]))
    unfold Joins firstVertex secondVertex
    rw [T.eHe]
    rcases this with ⟨z1, z2⟩ | ⟨z1, z2⟩ <;> rw [z1, z2]
    tauto

/-- **C78, twice:** an edge that has been flipped can be flipped again, and then every edge has its old ends. -/
theorem C78_twice {m : GMesh} (hv : m.Valid) {e : ℕ} (he : m.eL e) (h1 : ∀ h, m.heL h → m.heNext h ≠ h) (hf : m.Flippable e false) :
    ∃ m' m'', m.flip e false = .ok (m', true) ∧ m'.flip e false = .ok (m'', true) ∧ m''.Valid ∧ ∀ e', m.eL e' → ∀ v w, m''.Joins e' v w ↔ m.Joins e' v w := by
  obtain ⟨m', r, k1, v', k3, -, k4⟩ := C78 hv he h1 false
  obtain rfl := k3.2 hf
  have E1 := C78_ends hv he h1 k1
  have T := k4 rfl
  clear k4
  obtain ⟨c2, c3, d1, d2, d3, q, -⟩ := (quad_iff hv he h1 false).1 hf
  rw [q.sa, q.na1, q.na2, q.nb1, q.nb2] at T
  obtain ⟨-, -, t1, t2, t3, t4, t5, t6⟩ := T.ends hv q
  have eL' : ∀ e', m'.eL e' ↔ m.eL e' := by
    intro e'
    unfold eL
    rw [T.eHe, T.counts.2.2.2.2.2.2.2.2.1]
  have one : ∀ h, m'.heL h → m'.heNext h ≠ h := by
    intro h l k
    obtain ⟨nd, A, B⟩ := q.ne hv
    simp only [List.nodup_cons, List.mem_cons, List.not_mem_nil, or_false, not_or] at nd
    obtain ⟨⟨d12, d13, x11, x12, x13⟩, ⟨d23, x21, x22, x23⟩, ⟨x31, x32, x33⟩, ⟨e12, e13⟩, e23, -⟩ := nd
    have na := T.next_a
    have nb := T.next_b
    by_cases z1 : h = m.eHalfedge e
    · subst z1; split_ifs at na <;> simp_all
    by_cases z2 : h = c2
    · subst z2; split_ifs at na nb <;> simp_all
    by_cases z3 : h = c3
    · subst z3; split_ifs at na nb <;> simp_all
    by_cases z4 : h = d1
    · subst z4; split_ifs at nb <;> simp_all
    by_cases z5 : h = d2
    · subst z5; split_ifs at nb <;> simp_all
    by_cases z6 : h = d3
    · subst z6; split_ifs at na <;> simp_all
    rw [T.next_other h z1 z2 z3 z4 z5 z6] at k
    exact h1 h ((T.heL_iff h).1 l) k
  have F' : m'.Flippable e false := by
    unfold Flippable
    simp only
    rw [T.eHe, T.sibling, q.sa]
    refine ⟨?_, fun h l k => ?_, t3, t4, by rw [t5, t6]; exact q.face, fun k => (by cases k)⟩
    · have := hf.1
      rwa [q.sa] at this
    · rw [T.edge] at k
      have := hf.2.1 h ((T.heL_iff h).1 l) k
      rwa [q.sa] at this
  obtain ⟨m'', r', j1, j2, j3, -, -⟩ := C78 v' ((eL' e).2 he) one false
  obtain rfl := j3.2 F'
  have E2 := C78_ends v' ((eL' e).2 he) one j1
  refine ⟨m', m'', k1, j1, j2, fun e' he' v w => ?_⟩
  by_cases c : e' = e
  · subst c
    refine Joins.determined (x := m.heVertex d1) (y := m.tip d1) ?_ ?_ v w
    · obtain ⟨la, ea⟩ := hv.e_he e' he
      have lb := q.lb
      have eb : m.heEdge d1 = e' := by rw [← q.sa, hv.edge_sib la, ea]
      have := hv.ends lb
      rw [eb] at this
      unfold Joins
      exact this.imp (fun k => ⟨k.1, k.2⟩) (fun k => ⟨k.1, k.2⟩)
    · have := E2.1
      rw [T.eHe, T.sibling, q.sa, t1, t2] at this
      exact this
  · rw [E2.2 e' ((eL' e').2 he') c, E1.2 e' he' c]

/-! ### Witnesses -/

/-- Two triangles that run the same way along their common edge: their orientations disagree. -/
def twist : List (List ℕ) := [[0, 1, 2], [0, 1, 3]]
def twistOrder : List (ℕ × ℕ) := [(0, 1), (1, 2), (0, 2), (1, 3), (0, 3)]

theorem twist_built : ∃ m, fromPolygons twist twistOrder = .ok m ∧ Built twist m :=
  C24 twist twistOrder (by decide) (by decide) (by decide) (by decide) (by decide) (by decide)

/-- Two triangles glued along all three edges. -/
def pillow : List (List ℕ) := [[0, 1, 2], [0, 2, 1]]
def pillowOrder : List (ℕ × ℕ) := [(0, 1), (1, 2), (0, 2)]

theorem pillow_built : ∃ m, fromPolygons pillow pillowOrder = .ok m ∧ Built pillow m :=
  C24 pillow pillowOrder (by decide) (by decide) (by decide) (by decide) (by decide) (by decide)

/-- Edge 0 is live, no face is a 1-gon; the answer of `flip`, and the ends of edge 0 before and after. -/
def flipTest (r : Res GMesh) (p : Bool) : Bool × Bool × Option (Bool × ℕ × ℕ) :=
  match r with
  | .error _ => (false, false, none)
  | .ok m => (decide (0 < m.nEFill ∧ m.eHalfedge 0 ≠ INV), (List.range m.nHeFill).all (fun h => m.heNext h != h), match m.flip 0 p with
    | .ok (m', b) => some (b, m'.firstVertex 0, m'.secondVertex 0)
    | .error _ => none)

theorem twist_test : flipTest (fromPolygons twist twistOrder) true = (true, true, some (true, 3, 2)) := rfl
theorem tet_flip_test : flipTest (fromPolygons tet tetOrder) true = (true, true, some (false, 0, 1)) ∧ flipTest (fromPolygons tet tetOrder) false = (true, true, some (true, 2, 3)) := ⟨rfl, rfl⟩
theorem pillow_test : flipTest (fromPolygons pillow pillowOrder) true = (true, true, some (true, 2, 2)) := rfl

/-- `preventSelfEdges` does not prevent a self-edge when both triangles have the same opposite vertex. -/
theorem C78_self_edge : ∃ m e m', fromPolygons pillow pillowOrder = .ok m ∧ m.Valid ∧ m.eL e ∧ m.flip e true = .ok (m', true) ∧ m'.Joins e 2 2 := by
  obtain ⟨m, e, hb⟩ := pillow_built
  have t := pillow_test
  rw [e] at t
  simp only [flipTest, Prod.mk.injEq, decide_eq_true_eq] at t
  obtain ⟨t1, -, t3⟩ := t
  split at t3
  · rename_i m' b h
    simp only [Option.some.injEq, Prod.mk.injEq] at t3
    obtain ⟨rfl, t4, t5⟩ := t3
    exact ⟨m, 0, m', e, hb.valid, t1, h, .inl ⟨t4, t5⟩⟩
  · cases t3

/-- The hypotheses of the theorems are met, also where the faces are oriented differently. -/
example : ∃ m m', fromPolygons twist twistOrder = .ok m ∧ m.flip 0 true = .ok (m', true) ∧ m.Flippable 0 true ∧ m'.Valid ∧
    (∀ e', m.eL e' → e' ≠ 0 → ∀ v w, m'.Joins e' v w ↔ m.Joins e' v w) := by
  obtain ⟨m, e, hb⟩ := twist_built
  have t := twist_test
  rw [e] at t
  simp only [flipTest, Prod.mk.injEq, decide_eq_true_eq, List.all_eq_true, List.mem_range, bne_iff_ne] at t
  obtain ⟨t1, t2, t3⟩ := t
  have h1 : ∀ h, m.heL h → m.heNext h ≠ h := fun h l => t2 h l.1
  obtain ⟨m', r, k1, k2, k3, -, -⟩ := C78 hb.valid (e := 0) t1 h1 true
  rw [k1] at t3
  simp only [Option.some.injEq, Prod.mk.injEq] at t3
  obtain ⟨rfl, -, -⟩ := t3
  exact ⟨m, m', e, k1, k3.1 rfl, k2, (C78_ends hb.valid t1 h1 k1).2⟩

example : ∃ m, fromPolygons tet tetOrder = .ok m ∧ ¬ m.Flippable 0 true ∧ m.Flippable 0 false := by
  obtain ⟨m, e, hb⟩ := tet_built
  obtain ⟨t, u⟩ := tet_flip_test
  rw [e] at t u
  simp only [flipTest, Prod.mk.injEq, decide_eq_true_eq, List.all_eq_true, List.mem_range, bne_iff_ne] at t u
  obtain ⟨t1, t2, t3⟩ := t
  have h1 : ∀ h, m.heL h → m.heNext h ≠ h := fun h l => t2 h l.1
  obtain ⟨m', r, k1, k2, k3, -, -⟩ := C78 hb.valid (e := 0) t1 h1 true
  obtain ⟨m'', r', j1, j2, j3, -, -⟩ := C78 hb.valid (e := 0) t1 h1 false
  rw [k1] at t3
  rw [j1] at u
  simp only [Option.some.injEq, Prod.mk.injEq] at t3 u
  obtain ⟨rfl, -, -⟩ := t3
  obtain ⟨-, -, rfl, -, -⟩ := u
  exact ⟨m, e, fun k => (by cases k3.2 k), j3.1 rfl⟩

end GMesh
end GC
