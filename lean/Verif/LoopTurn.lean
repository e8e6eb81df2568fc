import Verif.LoopStep
import Verif.LoopFlip

/-! # The edges that `loopSubdivide` flips after it has split all of them -/

namespace GC
open Mesh

/-- No vertex inside the mesh has exactly two edges. -/
def Mesh.NoDegTwo (m : Mesh) : Prop :=
  ∀ i, m.heLive i → ¬ m.ext i → ¬ m.ext (twin i) → m.heNext (twin (m.heNext i)) ≠ twin i

section
variable {m : Mesh}

theorem twin_half {i j : ℕ} (h : i / 2 = j / 2) : i = j ∨ i = twin j := by
  by_cases c : i = j
  · exact .inl c
  · exact .inr (eq_twin_of_half h c)

/-- Another triangle does not have the sides `k`, `j` of the triangle `i, j, k` in this order. -/
theorem pairA (hv : m.Valid) (ht : m.TriFaces) (hl : m.NoLoops) (hd : m.NoDegTwo) {i d : ℕ} (hi : m.heLive i) (hx : ¬ m.ext i)
    (ld : m.heLive d) (xd : ¬ m.ext d) (h1 : m.heNext (m.heNext i) / 2 = d / 2) (h2 : m.heNext i / 2 = m.heNext d / 2) : False := by
  have t := ht i hi hx
  have l1 := hv.next_live _ hi
  have l2 := hv.next_live _ l1
  have x1 : ¬ m.ext (m.heNext i) := by rwa [ext_next' hv hi]
  obtain ⟨a, b, c⟩ := tri_halves hv ht hl hi hx
  rcases twin_half h1 with e | e
  · rw [← e, t] at h2; exact a h2.symm
  · rcases twin_half h2 with g | g
    · have := hv.next_inj hi ld g
      subst this
      exact b h1.symm
    · have e' : d = twin (m.heNext (m.heNext i)) := by rw [e, twin_twin]
      have g' : m.heNext d = twin (m.heNext i) := by rw [g, twin_twin]
      refine hd (m.heNext i) l1 x1 ?_ ?_
      · rw [← g', ext_next' hv ld]; exact xd
      · rw [← e', g']

/-- Nor in the other order. -/
theorem pairB (hv : m.Valid) (ht : m.TriFaces) (hl : m.NoLoops) {i d : ℕ} (hi : m.heLive i) (hx : ¬ m.ext i) (ld : m.heLive d)
    (hne : d ≠ m.heNext i) (h1 : m.heNext i / 2 = d / 2) (h2 : m.heNext (m.heNext i) / 2 = m.heNext d / 2) : False := by
  have t := ht i hi hx
  have l1 := hv.next_live _ hi
  have l2 := hv.next_live _ l1
  rcases twin_half h1 with e | e
  · exact hne e.symm
  · rcases twin_half h2 with g | g
    · exact hne (hv.next_inj l1 ld g).symm
    · have e' : d = twin (m.heNext i) := by rw [e, twin_twin]
      have g' : m.heNext d = twin (m.heNext (m.heNext i)) := by rw [g, twin_twin]
      have q := hv.vertex_next ld
      rw [g', e', twin_twin, ← hv.vertex_next l2, t, hv.vertex_next hi] at q
      exact hl i hi q

end

section
variable {P : Type} {m : Mesh} {pos splitP : ℕ → P} {pc : ℕ → ℕ → ℕ} {s : LoopSt P}

theorem ok_all (hv : m.Valid) {i t : ℕ} : okPc m m.nEFill i t ↔ m.heLive i ∧ (t = 0 ∨ t = 1 ∨ (¬ m.ext i ∧ (t = 2 ∨ t = 3))) := by
  have hf := hv.he_fill
  unfold okPc
  constructor
  · rintro ⟨h, h0 | ⟨-, h1⟩⟩
    · exact ⟨h, .inl h0⟩
    · exact ⟨h, .inr h1⟩
  · rintro ⟨h, h0 | h1⟩
    · exact ⟨h, .inl h0⟩
    · have := h.1
      exact ⟨h, .inr ⟨by omega, h1⟩⟩

/-- All sides of a triangle have been split. -/
structure Cut (pc : ℕ → ℕ → ℕ) (nx : ℕ → ℕ) (i j k : ℕ) : Prop where
  i0 : nx (pc i 0) = pc k 3
  i1 : nx (pc i 1) = pc j 0
  i2 : nx (pc i 2) = pc k 0
  i3 : nx (pc i 3) = pc j 3
  j0 : nx (pc j 0) = pc j 2
  j1 : nx (pc j 1) = pc i 3
  j2 : nx (pc j 2) = pc i 1
  j3 : nx (pc j 3) = pc j 1
  k0 : nx (pc k 0) = pc k 2
  k1 : nx (pc k 1) = pc i 0
  k2 : nx (pc k 2) = pc i 2
  k3 : nx (pc k 3) = pc k 1

/-- The middle of a side. -/
def midOf (m : Mesh) (e : ℕ) : ℕ := m.nVFill + subRk m e

theorem midOf_inj (hv : m.Valid) {i j : ℕ} (hi : m.heLive i) (hj : m.heLive j) (h : midOf m (i / 2) = midOf m (j / 2)) : i / 2 = j / 2 :=
  subRk_inj hv hi hj (by unfold midOf at h; omega)

variable (hv : m.Valid) (ht : m.TriFaces) (hl : m.NoLoops) (I : LInv m pos splitP m.nEFill pc s)
include hv ht hl I

theorem LInv.cut {i : ℕ} (hi : m.heLive i) (hx : ¬ m.ext i) (hf : sideFirst m i) :
    Cut pc s.m.heNext i (m.heNext i) (m.heNext (m.heNext i)) := by
  have l1 := hv.next_live _ hi
  have l2 := hv.next_live _ l1
  have T := I.tab i hi hx hf
  have := hi.1; have := l1.1; have := l2.1; have := hv.he_fill
  obtain ⟨a1, a2, a3, a4, a5⟩ := T.j1 (by omega) (by omega)
  obtain ⟨b1, b2, b3, b4, b5, b6⟩ := T.k1 (by omega) (by omega)
  exact ⟨b2, T.n1 (by omega), b6, a4, a1, a3, a2, a5, b4, b1, b5, b3⟩

omit hl ht in
theorem LInv.pcLive {i t : ℕ} (h : m.heLive i ∧ (t = 0 ∨ t = 1 ∨ (¬ m.ext i ∧ (t = 2 ∨ t = 3)))) : s.m.heLive (pc i t) :=
  (I.live _).2 ⟨i, t, (ok_all hv).2 h, rfl⟩

omit hl ht in
theorem LInv.pcInj {i t i' t' : ℕ} (h : m.heLive i ∧ (t = 0 ∨ t = 1 ∨ (¬ m.ext i ∧ (t = 2 ∨ t = 3))))
    (h' : m.heLive i' ∧ (t' = 0 ∨ t' = 1 ∨ (¬ m.ext i' ∧ (t' = 2 ∨ t' = 3)))) (e : pc i t = pc i' t') : i = i' ∧ t = t' :=
  I.inj i t i' t' ((ok_all hv).2 h) ((ok_all hv).2 h') e

omit hl ht in
theorem LInv.ltE {i : ℕ} (hi : m.heLive i) : i / 2 < m.nEFill := by
  have := hi.1; have := hv.he_fill; omega

omit hl ht in
theorem LInv.twin2 {i : ℕ} (hi : m.heLive i) (hx : ¬ m.ext i) : twin (pc i 2) = pc i 3 ∧ twin (pc i 3) = pc i 2 ∧ 2 * (pc i 2 / 2) = pc i 2 := by
  obtain ⟨a, b⟩ := I.tw2 i hi hx (I.ltE hv hi)
  obtain ⟨q, hq⟩ : ∃ q, pc i 2 = 2 * q := ⟨pc i 2 / 2, by omega⟩
  rw [b, hq]
  exact ⟨twin_two_mul q, twin_two_mul_add q, by omega⟩

omit hl ht in
theorem LInv.twin0 {i : ℕ} (hi : m.heLive i) : twin (pc i 0) = pc (twin i) 1 ∧ twin (pc i 1) = pc (twin i) 0 := by
  refine ⟨I.tw1 i hi (I.ltE hv hi), ?_⟩
  have li := hv.twin_live _ hi
  have := I.tw1 _ li (I.ltE hv li)
  rw [twin_twin] at this
  rw [← this, twin_twin]

/-- Two sides split first are not in one triangle. -/
theorem first_unique {i i' : ℕ} (hi : m.heLive i) (hx : ¬ m.ext i) (hf : sideFirst m i) (hi' : m.heLive i') (hf' : sideFirst m i')
    (h : m.heFace i' = m.heFace i) : i' = i := by
  have t := ht i hi hx
  rcases tri_mem hv hi t hi' h with e | e | e
  · exact e
  · obtain ⟨a, b⟩ := hf'; rw [e, t] at b; have := hf.1; omega
  · obtain ⟨a, b⟩ := hf'; rw [e, t] at a; have := hf.2; omega

omit hl in
/-- The six sides around the edge to be flipped in a triangle. -/
theorem LInv.six {i : ℕ} (C : Cut pc s.m.heNext i (m.heNext i) (m.heNext (m.heNext i))) (hi : m.heLive i) (hx : ¬ m.ext i) (x : ℕ) :
    s.m.inSix (pc i 2 / 2) x ↔ x = pc i 2 ∨ x = pc (m.heNext (m.heNext i)) 0 ∨ x = pc (m.heNext (m.heNext i)) 2 ∨ x = pc i 3 ∨
      x = pc (m.heNext i) 3 ∨ x = pc (m.heNext i) 1 := by
  obtain ⟨a, -, b⟩ := I.twin2 hv hi hx
  unfold inSix
  rw [b, a, C.i2, C.k0, C.i3, C.j3]

theorem LInv.six_face {i : ℕ} (hi : m.heLive i) (hx : ¬ m.ext i) (hf : sideFirst m i) {x : ℕ} (h : s.m.inSix (pc i 2 / 2) x) :
    ∃ c t, (m.heLive c ∧ (t = 0 ∨ t = 1 ∨ (¬ m.ext c ∧ (t = 2 ∨ t = 3)))) ∧ m.heFace c = m.heFace i ∧ x = pc c t := by
  have C := I.cut hv ht hl hi hx hf
  have l1 := hv.next_live _ hi
  have l2 := hv.next_live _ l1
  have f1 := hv.face_next hi
  have f2 := (hv.face_next l1).trans f1
  have x1 : ¬ m.ext (m.heNext i) := by rwa [ext_next' hv hi]
  have x2 : ¬ m.ext (m.heNext (m.heNext i)) := by rwa [ext_next' hv l1]
  rcases (I.six hv ht C hi hx x).1 h with rfl | rfl | rfl | rfl | rfl | rfl
  · exact ⟨_, _, ⟨hi, .inr (.inr ⟨hx, .inl rfl⟩)⟩, rfl, rfl⟩
  · exact ⟨_, _, ⟨l2, .inl rfl⟩, f2, rfl⟩
  · exact ⟨_, _, ⟨l2, .inr (.inr ⟨x2, .inl rfl⟩)⟩, f2, rfl⟩
  · exact ⟨_, _, ⟨hi, .inr (.inr ⟨hx, .inr rfl⟩)⟩, rfl, rfl⟩
  · exact ⟨_, _, ⟨l1, .inr (.inr ⟨x1, .inr rfl⟩)⟩, f1, rfl⟩
  · exact ⟨_, _, ⟨l1, .inr (.inl rfl)⟩, f1, rfl⟩

/-- Halfedges between two middles. -/
theorem LInv.between {x : ℕ} (hx : s.m.heLive x) (h1 : m.nVFill ≤ s.m.heVertex x) (h2 : m.nVFill ≤ s.m.heVertex (twin x)) :
    ∃ d, m.heLive d ∧ ¬ m.ext d ∧ (sideFirst m d ∨ sideFirst m (m.heNext d)) ∧
      ((s.m.heVertex x = midOf m (d / 2) ∧ s.m.heVertex (twin x) = midOf m (m.heNext d / 2)) ∨
        (s.m.heVertex x = midOf m (m.heNext d / 2) ∧ s.m.heVertex (twin x) = midOf m (d / 2))) := by
  have hv' := I.valid
  have old : ∀ i, m.heLive i → s.m.heVertex (pc i 0) < m.nVFill := fun i hi => by rw [I.v0 i hi]; exact (hv.vertex_live i hi).1
  obtain ⟨c, t, k, rfl⟩ := (I.live x).1 hx
  obtain ⟨lc, k⟩ := (ok_all hv).1 k
  rcases k with rfl | rfl | ⟨xc, k⟩
  · have := old c lc; omega
  · rw [(I.twin0 hv lc).2] at h2
    have := old _ (hv.twin_live _ lc); omega
  obtain ⟨tw, tw', -⟩ := I.twin2 hv lc xc
  have L2 := I.pcLive hv (i := c) (t := 2) ⟨lc, .inr (.inr ⟨xc, .inl rfl⟩)⟩
  -- the two ends of the cut from `c`
  obtain ⟨i, li, xi, hf, ef, mem⟩ := exists_first hv ht hl lc xc
  have C := I.cut hv ht hl li xi hf
  have l1 := hv.next_live _ li
  have l2 := hv.next_live _ l1
  have ti := ht i li xi
  have x1 : ¬ m.ext (m.heNext i) := by rwa [ext_next' hv li]
  have x2 : ¬ m.ext (m.heNext (m.heNext i)) := by rwa [ext_next' hv l1]
  have v2 : s.m.heVertex (pc c 2) = midOf m (c / 2) := I.v2 c lc xc (I.ltE hv lc)
  have v3 : s.m.heVertex (pc c 3) = s.m.heVertex (s.m.heNext (pc c 2)) := by rw [hv'.vertex_next L2, tw]
  have key : ∃ d, m.heLive d ∧ ¬ m.ext d ∧ (sideFirst m d ∨ sideFirst m (m.heNext d)) ∧
      ((s.m.heVertex (pc c 2) = midOf m (d / 2) ∧ s.m.heVertex (pc c 3) = midOf m (m.heNext d / 2)) ∨
        (s.m.heVertex (pc c 2) = midOf m (m.heNext d / 2) ∧ s.m.heVertex (pc c 3) = midOf m (d / 2))) := by
    rcases mem with rfl | rfl | rfl
    · exfalso
      rw [C.i2] at v3
      have := old _ l2
      rcases k with rfl | rfl
      · rw [tw] at h2; omega
      · omega
    · refine ⟨i, li, xi, .inl hf, .inr ⟨v2, ?_⟩⟩
      rw [v3, C.j2]; exact I.v1 i li (I.ltE hv li)
    · refine ⟨_, l2, x2, .inr (by rwa [ti]), .inl ⟨v2, ?_⟩⟩
      rw [v3, C.k2, ti]; exact I.v2 i li xi (I.ltE hv li)
  obtain ⟨d, a1, a2, a3, a4⟩ := key
  refine ⟨d, a1, a2, a3, ?_⟩
  rcases k with rfl | rfl
  · rw [tw]; exact a4
  · rw [tw']; exact a4.elim (fun h => .inr ⟨h.2, h.1⟩) (fun h => .inl ⟨h.2, h.1⟩)

omit hl in
theorem LInv.ops {i : ℕ} (C : Cut pc s.m.heNext i (m.heNext i) (m.heNext (m.heNext i))) (hi : m.heLive i) (hx : ¬ m.ext i) :
    s.m.opA (pc i 2 / 2) = midOf m (m.heNext (m.heNext i) / 2) ∧ s.m.opB (pc i 2 / 2) = midOf m (m.heNext i / 2) := by
  obtain ⟨a, -, b⟩ := I.twin2 hv hi hx
  have l1 := hv.next_live _ hi
  have l2 := hv.next_live _ l1
  have x2 : ¬ m.ext (m.heNext (m.heNext i)) := by rwa [ext_next' hv l1, ext_next' hv hi]
  unfold opA opB
  rw [b, a, C.i2, C.k0, C.i3, C.j3]
  exact ⟨I.v2 _ l2 x2 (I.ltE hv l2), I.v1 _ l1 (I.ltE hv l1)⟩

/-- Every flip is carried out. -/
theorem LInv.turn (hd : m.NoDegTwo) : ∃ m', s.toFlip.foldlM loopFlip s.m = .ok m' ∧ Flipped s.m m' s.toFlip := by
  have hv' := I.valid
  have mem : ∀ {e}, e ∈ s.toFlip → ∃ i, m.heLive i ∧ ¬ m.ext i ∧ sideFirst m i ∧ e = pc i 2 / 2 := fun {e} h => by
    obtain ⟨i, a, b, c, -, d⟩ := (I.flips e).1 h; exact ⟨i, a, b, c, d⟩
  refine flips_ok hv' I.nodup ?_ ?_ ?_ ?_
  · intro e he
    obtain ⟨i, li, xi, hf, rfl⟩ := mem he
    obtain ⟨a, -, b⟩ := I.twin2 hv li xi
    have C := I.cut hv ht hl li xi hf
    have l1 := hv.next_live _ li
    have l2 := hv.next_live _ l1
    have x1 : ¬ m.ext (m.heNext i) := by rwa [ext_next' hv li]
    rw [b]
    have k2 := (ok_all (m := m) hv).2 ⟨li, .inr (.inr ⟨xi, .inl rfl⟩)⟩
    have k3 := (ok_all (m := m) hv).2 ⟨li, .inr (.inr ⟨xi, .inr rfl⟩)⟩
    refine ⟨I.pcLive hv ⟨li, .inr (.inr ⟨xi, .inl rfl⟩)⟩, by rw [I.ex _ _ k2]; exact xi, by rw [a, I.ex _ _ k3]; exact xi,
      by rw [C.i2, C.k0, C.k2], by rw [a, C.i3, C.j3, C.j1], ?_, ?_⟩
    · rw [a, C.i2]; intro h
      have := (I.pcInj hv ⟨l2, .inl rfl⟩ ⟨li, .inr (.inr ⟨xi, .inr rfl⟩)⟩ h).2
      omega
    · rw [a, C.i3]; intro h
      have := (I.pcInj hv ⟨l1, .inr (.inr ⟨x1, .inr rfl⟩)⟩ ⟨li, .inr (.inr ⟨xi, .inl rfl⟩)⟩ h).2
      omega
  · intro e he e' he' hne x h h'
    obtain ⟨i, li, xi, hf, rfl⟩ := mem he
    obtain ⟨i', li', xi', hf', rfl⟩ := mem he'
    obtain ⟨c, t, k, f, e1⟩ := I.six_face hv ht hl li xi hf h
    obtain ⟨c', t', k', f', e2⟩ := I.six_face hv ht hl li' xi' hf' h'
    have := (I.pcInj hv k k' (e1.symm.trans e2)).1
    subst this
    have := first_unique hv ht hl I li xi hf li' hf' (f'.symm.trans f)
    subst this
    exact hne rfl
  · intro e he x hx
    obtain ⟨i, li, xi, hf, rfl⟩ := mem he
    have C := I.cut hv ht hl li xi hf
    obtain ⟨o1, o2⟩ := I.ops hv ht C li xi
    rw [o1, o2]
    rintro ⟨q1, q2⟩
    have l1 := hv.next_live _ li
    have l2 := hv.next_live _ l1
    have ti := ht i li xi
    obtain ⟨d, ld, xd, hfd, g⟩ := I.between hv ht hl hx (by rw [q1]; unfold midOf; omega) (by rw [q2]; unfold midOf; omega)
    have ln := hv.next_live _ ld
    rw [q1, q2] at g
    rcases g with ⟨g1, g2⟩ | ⟨g1, g2⟩
    · exact pairA hv ht hl hd li xi ld xd (midOf_inj hv l2 ld g1) (midOf_inj hv l1 ln g2)
    · refine pairB hv ht hl li xi ld ?_ (midOf_inj hv l1 ld g2) (midOf_inj hv l2 ln g1)
      rintro rfl
      obtain ⟨h1, h2⟩ := hf
      rcases hfd with hfd | hfd
      · obtain ⟨h3, h4⟩ := hfd; rw [ti] at h4; omega
      · obtain ⟨h3, h4⟩ := hfd; rw [ti] at h3; omega
  · intro e he e' he' hne
    obtain ⟨i, li, xi, hf, rfl⟩ := mem he
    obtain ⟨i', li', xi', hf', rfl⟩ := mem he'
    obtain ⟨o1, o2⟩ := I.ops hv ht (I.cut hv ht hl li xi hf) li xi
    obtain ⟨p1, p2⟩ := I.ops hv ht (I.cut hv ht hl li' xi' hf') li' xi'
    have l1 := hv.next_live _ li
    have l2 := hv.next_live _ l1
    have l1' := hv.next_live _ li'
    have l2' := hv.next_live _ l1'
    have x1' : ¬ m.ext (m.heNext i') := by rwa [ext_next' hv li']
    rw [o1, o2, p1, p2]
    constructor
    · rintro ⟨g1, g2⟩
      refine pairB hv ht hl li xi l1' (fun h => ?_) (midOf_inj hv l1 l1' g2.symm) (midOf_inj hv l2 l2' g1.symm)
      have := hv.next_inj li' li h
      subst this; exact hne rfl
    · rintro ⟨g1, g2⟩
      exact pairA hv ht hl hd li xi l1' x1' (midOf_inj hv l2 l1' g2.symm) (midOf_inj hv l1 l2' g1.symm)

/-- A triangle after the flip. -/
structure Turned (pc : ℕ → ℕ → ℕ) (nx : ℕ → ℕ) (i j k : ℕ) : Prop where
  i0 : nx (pc i 0) = pc k 3
  i1 : nx (pc i 1) = pc j 0
  i2 : nx (pc i 2) = pc j 1
  i3 : nx (pc i 3) = pc k 2
  j0 : nx (pc j 0) = pc j 2
  j1 : nx (pc j 1) = pc k 0
  j2 : nx (pc j 2) = pc i 1
  j3 : nx (pc j 3) = pc i 3
  k0 : nx (pc k 0) = pc i 2
  k1 : nx (pc k 1) = pc i 0
  k2 : nx (pc k 2) = pc j 3
  k3 : nx (pc k 3) = pc k 1

theorem LInv.turned {m' : Mesh} (F : Flipped s.m m' s.toFlip) {i : ℕ} (hi : m.heLive i) (hx : ¬ m.ext i) (hf : sideFirst m i) :
    Turned pc m'.heNext i (m.heNext i) (m.heNext (m.heNext i)) := by
  have C := I.cut hv ht hl hi hx hf
  obtain ⟨a, -, b⟩ := I.twin2 hv hi hx
  have l1 := hv.next_live _ hi
  have l2 := hv.next_live _ l1
  have f1 := hv.face_next hi
  have f2 := (hv.face_next l1).trans f1
  have x1 : ¬ m.ext (m.heNext i) := by rwa [ext_next' hv hi]
  have x2 : ¬ m.ext (m.heNext (m.heNext i)) := by rwa [ext_next' hv l1]
  have he : pc i 2 / 2 ∈ s.toFlip := (I.flips _).2 ⟨i, hi, hx, hf, I.ltE hv hi, rfl⟩
  have A := F.arr _ he
  rw [b, a, C.i2, C.k0, C.i3, C.j3] at A
  obtain ⟨h1, h2, h3, h4, h5, h6⟩ := A
  obtain ⟨n1, n2, n3⟩ := tri_halves hv ht hl hi hx
  have keep : ∀ c t, (m.heLive c ∧ (t = 0 ∨ t = 1 ∨ (¬ m.ext c ∧ (t = 2 ∨ t = 3)))) → m.heFace c = m.heFace i →
      ((c = i ∧ (t = 0 ∨ t = 1)) ∨ (c = m.heNext i ∧ (t = 0 ∨ t = 2)) ∨ (c = m.heNext (m.heNext i) ∧ (t = 1 ∨ t = 3))) →
      m'.heNext (pc c t) = s.m.heNext (pc c t) := by
    intro c t k fc hc
    refine F.no _ fun e he' h => ?_
    obtain ⟨i', li', xi', hf', -, rfl⟩ := (I.flips e).1 he'
    obtain ⟨c', t', k', f', e2⟩ := I.six_face hv ht hl li' xi' hf' h
    have := (I.pcInj hv k k' e2).1
    subst this
    have := first_unique hv ht hl I hi hx hf li' hf' (f'.symm.trans fc)
    subst this
    have q : ∀ {c' t'}, m.heLive c' ∧ (t' = 0 ∨ t' = 1 ∨ (¬ m.ext c' ∧ (t' = 2 ∨ t' = 3))) → pc c t = pc c' t' → c = c' ∧ t = t' :=
      fun k' e => I.pcInj hv k k' e
    have N1 : i' ≠ m.heNext i' := fun h => n1 (by rw [← h])
    have N2 : i' ≠ m.heNext (m.heNext i') := fun h => n2 (by rw [← h])
    have N3 : m.heNext i' ≠ m.heNext (m.heNext i') := fun h => n3 (by rw [← h])
    have bad : (c = i' ∧ (t = 2 ∨ t = 3)) ∨ (c = m.heNext (m.heNext i') ∧ (t = 0 ∨ t = 2)) ∨ (c = m.heNext i' ∧ (t = 3 ∨ t = 1)) := by
      rcases (I.six hv ht C hi hx _).1 h with e | e | e | e | e | e
      · obtain ⟨u, w⟩ := q ⟨hi, .inr (.inr ⟨hx, .inl rfl⟩)⟩ e; exact .inl ⟨u, .inl w⟩
      · obtain ⟨u, w⟩ := q ⟨l2, .inl rfl⟩ e; exact .inr (.inl ⟨u, .inl w⟩)
      · obtain ⟨u, w⟩ := q ⟨l2, .inr (.inr ⟨x2, .inl rfl⟩)⟩ e; exact .inr (.inl ⟨u, .inr w⟩)
      · obtain ⟨u, w⟩ := q ⟨hi, .inr (.inr ⟨hx, .inr rfl⟩)⟩ e; exact .inl ⟨u, .inr w⟩
      · obtain ⟨u, w⟩ := q ⟨l1, .inr (.inr ⟨x1, .inr rfl⟩)⟩ e; exact .inr (.inr ⟨u, .inl w⟩)
      · obtain ⟨u, w⟩ := q ⟨l1, .inr (.inl rfl)⟩ e; exact .inr (.inr ⟨u, .inr w⟩)
    rcases hc with ⟨u, w⟩ | ⟨u, w⟩ | ⟨u, w⟩ <;> rcases bad with ⟨u', w'⟩ | ⟨u', w'⟩ | ⟨u', w'⟩
    · omega
    · exact N2 (u.symm.trans u')
    · exact N1 (u.symm.trans u')
    · exact N1 (u'.symm.trans u)
    · exact N3 (u.symm.trans u')
    · omega
    · exact N2 (u'.symm.trans u)
    · omega
    · exact N3 (u'.symm.trans u)
  refine ⟨?_, ?_, h1, h4, ?_, h2, ?_, h6, h3, ?_, h5, ?_⟩
  · rw [keep i 0 ⟨hi, .inl rfl⟩ rfl (.inl ⟨rfl, .inl rfl⟩), C.i0]
  · rw [keep i 1 ⟨hi, .inr (.inl rfl)⟩ rfl (.inl ⟨rfl, .inr rfl⟩), C.i1]
  · rw [keep _ 0 ⟨l1, .inl rfl⟩ f1 (.inr (.inl ⟨rfl, .inl rfl⟩)), C.j0]
  · rw [keep _ 2 ⟨l1, .inr (.inr ⟨x1, .inl rfl⟩)⟩ f1 (.inr (.inl ⟨rfl, .inr rfl⟩)), C.j2]
  · rw [keep _ 1 ⟨l2, .inr (.inl rfl)⟩ f2 (.inr (.inr ⟨rfl, .inl rfl⟩)), C.k1]
  · rw [keep _ 3 ⟨l2, .inr (.inr ⟨x2, .inr rfl⟩)⟩ f2 (.inr (.inr ⟨rfl, .inr rfl⟩)), C.k3]

/-- Exterior halfedges and vertices after the flips. -/
theorem LInv.turned_ext {m' : Mesh} (F : Flipped s.m m' s.toFlip) {i t : ℕ} (hi : m.heLive i) (hx : m.ext i) (h : t = 0 ∨ t = 1) :
    m'.heNext (pc i t) = s.m.heNext (pc i t) := by
  refine F.no _ fun e he h' => ?_
  obtain ⟨i', li', xi', hf', -, rfl⟩ := (I.flips e).1 he
  obtain ⟨c', t', k', f', e2⟩ := I.six_face hv ht hl li' xi' hf' h'
  have := (I.pcInj hv ⟨hi, h.elim .inl (.inr ∘ .inl)⟩ k' e2).1
  subst this
  unfold ext at hx xi'; rw [← f'] at xi'; exact xi' hx

omit hl ht in
theorem LInv.turned_vertex {m' : Mesh} (F : Flipped s.m m' s.toFlip) {i t : ℕ} (k : m.heLive i ∧ (t = 0 ∨ t = 1 ∨ (¬ m.ext i ∧ (t = 2 ∨ t = 3))))
    (h : t = 0 ∨ t = 1 ∨ ¬ sideFirst m i) : m'.heVertex (pc i t) = s.m.heVertex (pc i t) := by
  refine F.vo _ fun e he => ?_
  obtain ⟨i', li', xi', hf', -, rfl⟩ := (I.flips e).1 he
  obtain ⟨a, -, b⟩ := I.twin2 hv li' xi'
  rw [b, a]
  constructor
  · intro e
    obtain ⟨rfl, rfl⟩ := I.pcInj hv k ⟨li', .inr (.inr ⟨xi', .inl rfl⟩)⟩ e
    rcases h with h | h | h
    · omega
    · omega
    · exact h hf'
  · intro e
    obtain ⟨rfl, rfl⟩ := I.pcInj hv k ⟨li', .inr (.inr ⟨xi', .inr rfl⟩)⟩ e
    rcases h with h | h | h
    · omega
    · omega
    · exact h hf'

end
end GC
