import Verif.LoopSub
import Verif.DelaunayMesh
import Verif.MeshBuildSides

/-! # Flipping a list of edges that do not touch each other -/

namespace GC
namespace Mesh

/-- `x` is one of the six sides of the triangles at the edge `e`. -/
def inSix (m : Mesh) (e x : ℕ) : Prop :=
  x = 2 * e ∨ x = m.heNext (2 * e) ∨ x = m.heNext (m.heNext (2 * e)) ∨ x = twin (2 * e) ∨ x = m.heNext (twin (2 * e)) ∨
    x = m.heNext (m.heNext (twin (2 * e)))

/-- The vertices opposite to the edge `e`. -/
def opA (m : Mesh) (e : ℕ) : ℕ := m.heVertex (m.heNext (m.heNext (2 * e)))
def opB (m : Mesh) (e : ℕ) : ℕ := m.heVertex (m.heNext (m.heNext (twin (2 * e))))

/-- What one call of `flip` leaves alone. -/
structure SameShape (m m' : Mesh) : Prop where
  valid : m'.Valid
  tri : m.TriFaces → m'.TriFaces
  live : ∀ i, m'.heLive i ↔ m.heLive i
  ext : ∀ i, m.heLive i → (m'.ext i ↔ m.ext i)
  c_v : m'.nV = m.nV
  c_e : m'.nE = m.nE
  c_f : m'.nF = m.nF
  c_bl : m'.nBL = m.nBL
  fV : m'.nVFill = m.nVFill
  fE : m'.nEFill = m.nEFill
  fF : m'.nFFill = m.nFFill
  vl : ∀ v, m'.vLive v ↔ m.vLive v

theorem SameShape.refl {m : Mesh} (hv : m.Valid) : SameShape m m := ⟨hv, id, fun _ => Iff.rfl, fun _ _ => Iff.rfl, rfl, rfl, rfl, rfl, rfl, rfl, rfl, fun _ => Iff.rfl⟩

theorem SameShape.trans {a b c : Mesh} (h : SameShape a b) (k : SameShape b c) : SameShape a c :=
  ⟨k.valid, fun t => k.tri (h.tri t), fun i => (k.live i).trans (h.live i), fun i hi => (k.ext i ((h.live i).2 hi)).trans (h.ext i hi),
    k.c_v.trans h.c_v, k.c_e.trans h.c_e, k.c_f.trans h.c_f, k.c_bl.trans h.c_bl, k.fV.trans h.fV, k.fE.trans h.fE, k.fF.trans h.fF, fun v => (k.vl v).trans (h.vl v)⟩

theorem flipCore_shape {m : Mesh} (hv : m.Valid) {a : ℕ} (h : FlipOK m a) : SameShape m (m.flipCore a) := by
  have V := flipView hv h
  refine ⟨flipCore_valid hv h, fun t => V.triFaces t, V.live, V.ext, rfl, rfl, rfl, rfl, rfl, rfl, rfl, fun v => ?_⟩
  have la := (hv.vertex_live _ h.live).2
  have lb := (hv.vertex_live _ (hv.twin_live _ h.live)).2
  have n2 := (hv.live_lt_INV (hv.next_live _ h.live)).ne
  have n5 := (hv.live_lt_INV (hv.next_live _ (hv.twin_live _ h.live))).ne
  have fill : (m.flipCore a).nVFill = m.nVFill := rfl
  unfold vLive
  rw [fill]
  refine and_congr_right fun _ => ?_
  unfold flipCore
  simp only
  split_ifs with c1 c2 c2
  · rw [upd_apply, upd_apply]
    split_ifs with d1 d2
    · subst d1; exact iff_of_true n2 lb
    · subst d2; exact iff_of_true n5 la
    · exact Iff.rfl
  · rw [upd_apply]
    split_ifs with d1
    · subst d1; exact iff_of_true n5 la
    · exact Iff.rfl
  · rw [upd_apply]
    split_ifs with d1
    · subst d1; exact iff_of_true n2 lb
    · exact Iff.rfl
  · exact Iff.rfl

theorem loopFlip_shape {m : Mesh} (hv : m.Valid) {e : ℕ} (he : m.heLive (2 * e)) : ∃ m', m.loopFlip e = .ok m' ∧ SameShape m m' := by
  unfold loopFlip
  rcases flip_cases hv (e := e) he true with h | ⟨h, ok, -⟩
  · rw [h]; exact ⟨m, rfl, .refl hv⟩
  · rw [h]; exact ⟨_, rfl, flipCore_shape hv ok⟩

/-- Flipping any list of edges, whatever `flip` refuses. -/
theorem loopFlips_shape {m : Mesh} (hv : m.Valid) {L : List ℕ} (hL : ∀ e ∈ L, m.heLive (2 * e)) :
    ∃ m', L.foldlM loopFlip m = .ok m' ∧ SameShape m m' := by
  refine foldlM_inv (l := L) (f := loopFlip) (fun _ s => SameShape m s) (.refl hv) ?_
  rintro p x q s hl I
  obtain ⟨m', e, k⟩ := loopFlip_shape I.valid ((I.live (2 * x)).2 (hL x (by rw [hl]; simp)))
  exact ⟨m', e, I.trans k⟩

/-- All edges of the list have been turned. -/
structure Flipped (m m' : Mesh) (L : List ℕ) : Prop where
  shape : SameShape m m'
  arr : ∀ e ∈ L, m'.heNext (2 * e) = m.heNext (m.heNext (twin (2 * e))) ∧ m'.heNext (m.heNext (m.heNext (twin (2 * e)))) = m.heNext (2 * e) ∧
    m'.heNext (m.heNext (2 * e)) = 2 * e ∧ m'.heNext (twin (2 * e)) = m.heNext (m.heNext (2 * e)) ∧
    m'.heNext (m.heNext (m.heNext (2 * e))) = m.heNext (twin (2 * e)) ∧ m'.heNext (m.heNext (twin (2 * e))) = twin (2 * e)
  no : ∀ x, (∀ e ∈ L, ¬ m.inSix e x) → m'.heNext x = m.heNext x
  ve : ∀ e ∈ L, m'.heVertex (2 * e) = m.opA e ∧ m'.heVertex (twin (2 * e)) = m.opB e
  vo : ∀ x, (∀ e ∈ L, x ≠ 2 * e ∧ x ≠ twin (2 * e)) → m'.heVertex x = m.heVertex x

theorem flips_ok {m : Mesh} (hv : m.Valid) {L : List ℕ} (hnd : L.Nodup) (hok : ∀ e ∈ L, FlipOK m (2 * e))
    (hdis : ∀ e ∈ L, ∀ e' ∈ L, e ≠ e' → ∀ x, m.inSix e x → ¬ m.inSix e' x)
    (hadj : ∀ e ∈ L, ∀ x, m.heLive x → ¬ (m.heVertex x = m.opA e ∧ m.heVertex (twin x) = m.opB e))
    (hpair : ∀ e ∈ L, ∀ e' ∈ L, e ≠ e' → ¬ (m.opA e' = m.opA e ∧ m.opB e' = m.opB e) ∧ ¬ (m.opA e' = m.opB e ∧ m.opB e' = m.opA e)) :
    ∃ m', L.foldlM loopFlip m = .ok m' ∧ Flipped m m' L := by
  refine foldlM_inv (l := L) (f := loopFlip) (fun p s => Flipped m s p)
    ⟨.refl hv, fun e h => by simp at h, fun _ _ => rfl, fun e h => by simp at h, fun _ _ => rfl⟩ ?_
  rintro p x q s hl I
  have hx : x ∈ L := by rw [hl]; simp
  have hp : ∀ e ∈ p, e ∈ L := fun e h => by rw [hl]; simp [h]
  have hxp : ∀ e ∈ p, e ≠ x := by
    rintro e h rfl
    rw [hl, List.nodup_append] at hnd
    exact hnd.2.2 _ h _ (by simp) rfl
  have ok := hok x hx
  have S := six_of hv ok
  -- the six sides are as they were
  have keep : ∀ z, m.inSix x z → s.heNext z = m.heNext z := fun z hz => I.no z fun e he => fun h => hdis e (hp e he) x hx (hxp e he) z h hz
  have vk : ∀ z, m.inSix x z → s.heVertex z = m.heVertex z := fun z hz => I.vo z fun e he => by
    constructor
    · rintro rfl; exact hdis e (hp e he) x hx (hxp e he) _ (.inl rfl) hz
    · rintro rfl; exact hdis e (hp e he) x hx (hxp e he) _ (.inr (.inr (.inr (.inl rfl)))) hz
  have k1 := keep (2 * x) (.inl rfl)
  have k2 := keep (m.heNext (2 * x)) (.inr (.inl rfl))
  have k3 := keep (m.heNext (m.heNext (2 * x))) (.inr (.inr (.inl rfl)))
  have k4 := keep (twin (2 * x)) (.inr (.inr (.inr (.inl rfl))))
  have k5 := keep (m.heNext (twin (2 * x))) (.inr (.inr (.inr (.inr (.inl rfl)))))
  have k6 := keep (m.heNext (m.heNext (twin (2 * x)))) (.inr (.inr (.inr (.inr (.inr rfl)))))
  have w3 := vk (m.heNext (m.heNext (2 * x))) (.inr (.inr (.inl rfl)))
  have w6 := vk (m.heNext (m.heNext (twin (2 * x)))) (.inr (.inr (.inr (.inr (.inr rfl)))))
  have lx : s.heLive (2 * x) := (I.shape.live _).2 ok.live
  have ok' : FlipOK s (2 * x) :=
    ⟨lx, by rw [I.shape.ext _ ok.live]; exact ok.int_a, by rw [I.shape.ext _ (hv.twin_live _ ok.live)]; exact ok.int_b,
      by rw [k1, k2, k3]; exact ok.tri_a, by rw [k4, k5, k6]; exact ok.tri_b, by rw [k1]; exact ok.deg_a, by rw [k4]; exact ok.deg_b⟩
  have hflip : s.flip x true = .ok (s.flipCore (2 * x), true) := by
    have hv' := I.shape.valid
    have h1 : ¬ s.eIsBoundary x := by unfold eIsBoundary; rw [not_ext_iff]; exact not_not.2 ok'.int_b
    have h4 : ¬ (s.heNext (2 * x) = twin (2 * x) ∨ s.heNext (twin (2 * x)) = 2 * x) := by push Not; exact ⟨ok'.deg_a, ok'.deg_b⟩
    have hl3 := hv'.next_live _ (hv'.next_live _ lx)
    obtain ⟨l, hl1, _, hl2, _⟩ := hv'.outgoingHalfedges_ok (hv'.vertex_live _ hl3)
    have hadj' : s.adjacentVertices (s.heVertex (s.heNext (s.heNext (2 * x)))) = .ok (l.map s.tip) := by
      unfold adjacentVertices; rw [hl1]
    unfold flip
    simp only [if_neg h1, eHalfedge, ok'.tri_a, ok'.tri_b, h4, ne_eq, not_true, if_false, if_true, hadj']
    refine if_neg ?_
    rw [List.mem_map]
    rintro ⟨y, hy, e⟩
    obtain ⟨ly, ey⟩ := (hl2 y).1 hy
    have ly' := (I.shape.live y).1 ly
    have ty : s.tip y = s.heVertex (twin y) := hv'.vertex_next ly
    rw [ty, k4, k5, w6] at e
    rw [k1, k2, w3] at ey
    by_cases c : ∃ e ∈ p, y = 2 * e ∨ y = twin (2 * e)
    · obtain ⟨e', he', c⟩ := c
      obtain ⟨p1, p2⟩ := hpair x hx e' (hp e' he') (hxp e' he').symm
      obtain ⟨q1, q2⟩ := I.ve e' he'
      rcases c with rfl | rfl
      · rw [q1] at ey; rw [q2] at e; exact p1 ⟨ey, e⟩
      · rw [twin_twin, q1] at e; rw [q2] at ey; exact p2 ⟨e, ey⟩
    · push Not at c
      rw [I.vo y c] at ey
      rw [I.vo (twin y) fun e' he' => ⟨fun h => (c e' he').2 (by rw [← h, twin_twin]), fun h => (c e' he').1 (by rw [← twin_twin y, h, twin_twin])⟩] at e
      exact hadj x hx y ly' ⟨ey, e⟩
  have S' := six_of I.shape.valid ok'
  have F := flipArrays S'
  rw [k4, k5, k1, k2] at F
  have sh := flipCore_shape I.shape.valid ok'
  refine ⟨s.flipCore (2 * x), by unfold loopFlip; rw [hflip]; rfl, ⟨I.shape.trans sh, ?_, ?_, ?_, ?_⟩⟩
  · intro e he
    rw [List.mem_append, List.mem_singleton] at he
    rcases he with he | rfl
    · have d : ∀ z, m.inSix e z → (s.flipCore (2 * x)).heNext z = s.heNext z := fun z hz => by
        have := hdis e (hp e he) x hx (hxp e he) z hz
        unfold inSix at this; push Not at this
        obtain ⟨a1, a2, a3, a4, a5, a6⟩ := this
        exact F.no z a1 a2 a3 a4 a5 a6
      rw [d _ (.inl rfl), d _ (.inr (.inl rfl)), d _ (.inr (.inr (.inl rfl))), d _ (.inr (.inr (.inr (.inl rfl)))),
        d _ (.inr (.inr (.inr (.inr (.inl rfl))))), d _ (.inr (.inr (.inr (.inr (.inr rfl)))))]
      exact I.arr e he
    · exact ⟨F.na1, F.nb3, F.na2, F.nb1, F.na3, F.nb2⟩
  · intro z hz
    have hz' := hz x (by simp)
    unfold inSix at hz'; push Not at hz'
    obtain ⟨a1, a2, a3, a4, a5, a6⟩ := hz'
    rw [F.no z a1 a2 a3 a4 a5 a6, I.no z fun e he => hz e (by simp [he])]
  · intro e he
    rw [List.mem_append, List.mem_singleton] at he
    rcases he with he | rfl
    · have h := hdis e (hp e he) x hx (hxp e he)
      rw [F.vo _ (fun h' => h _ (.inl rfl) (.inl h')) (fun h' => h _ (.inl rfl) (.inr (.inr (.inr (.inl h'))))),
        F.vo _ (fun h' => h _ (.inr (.inr (.inr (.inl rfl)))) (.inl h')) (fun h' => h _ (.inr (.inr (.inr (.inl rfl)))) (.inr (.inr (.inr (.inl h')))))]
      exact I.ve e he
    · exact ⟨F.va1.trans w3, F.vb1.trans w6⟩
  · intro z hz
    obtain ⟨a, b⟩ := hz x (by simp)
    rw [F.vo z a b, I.vo z fun e he => hz e (by simp [he])]

end Mesh
end GC
