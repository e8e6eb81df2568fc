import Verif.LoopSplit
import Verif.LoopTab
import Verif.SubdivideEdges
import Verif.DelaunayMesh
import Verif.Props.Nav

/-! # The loop over the edges in `loopSubdivide` -/

namespace GC
open Mesh

/-- No edge joins a vertex with itself. -/
def Mesh.NoLoops (m : Mesh) : Prop := ∀ i, m.heLive i → m.heVertex i ≠ m.heVertex (twin i)

/-- `i` is the side of its triangle whose edge has the least index. -/
def sideFirst (m : Mesh) (i : ℕ) : Prop := i / 2 < m.heNext i / 2 ∧ i / 2 < m.heNext (m.heNext i) / 2

/-- The piece `t` of `i` exists after the edges before `n` have been split. -/
def okPc (m : Mesh) (n i t : ℕ) : Prop := m.heLive i ∧ (t = 0 ∨ (i / 2 < n ∧ (t = 1 ∨ (¬ m.ext i ∧ (t = 2 ∨ t = 3)))))

/-- Number of interior sides of the edges before `n`. -/
noncomputable def subIn (m : Mesh) : ℕ → ℕ
  | 0 => 0
  | n + 1 => subIn m n + (open Classical in if m.heLive (2 * n) then (if m.ext (2 * n + 1) then 1 else 2) else 0)

section
variable {m : Mesh}

theorem tri_mem (hv : m.Valid) {i x : ℕ} (hi : m.heLive i) (h3 : m.heNext (m.heNext (m.heNext i)) = i) (hx : m.heLive x)
    (h : m.heFace x = m.heFace i) : x = i ∨ x = m.heNext i ∨ x = m.heNext (m.heNext i) := by
  have o := (hv.face_iff i x hi hx).1 h.symm
  refine o.mem (fun z => z = i ∨ z = m.heNext i ∨ z = m.heNext (m.heNext i)) (.inl rfl) ?_
  rintro z (rfl | rfl | rfl)
  · exact .inr (.inl rfl)
  · exact .inr (.inr rfl)
  · exact .inl h3

theorem eq_twin_of_half {a b : ℕ} (h : a / 2 = b / 2) (hne : a ≠ b) : a = twin b := by
  rcases Nat.even_or_odd' b with ⟨k, rfl | rfl⟩
  · rw [twin_two_mul]; omega
  · rw [twin_two_mul_add]; omega

theorem tri_half (hv : m.Valid) (ht : m.TriFaces) (hl : m.NoLoops) {i : ℕ} (hi : m.heLive i) (hx : ¬ m.ext i) : m.heNext i / 2 ≠ i / 2 := by
  intro h
  have e := eq_twin_of_half h (hv.deg_two _ hi)
  have l1 := hv.next_live _ hi
  have l2 := hv.next_live _ l1
  have t := ht i hi hx
  refine hl _ l2 ?_
  rw [← hv.vertex_next l2, t, hv.vertex_next l1, e, twin_twin]

theorem ext_next' (hv : m.Valid) {i : ℕ} (hi : m.heLive i) : m.ext (m.heNext i) ↔ m.ext i := by
  unfold ext; rw [hv.face_next hi]

/-- A triangle has three different edges. -/
theorem tri_halves (hv : m.Valid) (ht : m.TriFaces) (hl : m.NoLoops) {i : ℕ} (hi : m.heLive i) (hx : ¬ m.ext i) :
    i / 2 ≠ m.heNext i / 2 ∧ i / 2 ≠ m.heNext (m.heNext i) / 2 ∧ m.heNext i / 2 ≠ m.heNext (m.heNext i) / 2 := by
  have l1 := hv.next_live _ hi
  have x1 : ¬ m.ext (m.heNext i) := by rwa [ext_next' hv hi]
  have l2 := hv.next_live _ l1
  have x2 : ¬ m.ext (m.heNext (m.heNext i)) := by rwa [ext_next' hv l1]
  refine ⟨(tri_half hv ht hl hi hx).symm, ?_, (tri_half hv ht hl l1 x1).symm⟩
  have := tri_half hv ht hl l2 x2
  rwa [ht i hi hx] at this

/-- The two sides of an edge are in different faces. -/
theorem sides_ne (hv : m.Valid) (ht : m.TriFaces) (hl : m.NoLoops) {i : ℕ} (hi : m.heLive i) (hx : ¬ m.ext i) : m.heFace (twin i) ≠ m.heFace i := by
  intro h
  obtain ⟨a, b, -⟩ := tri_halves hv ht hl hi hx
  have e : twin i / 2 = i / 2 := by
    rcases Nat.even_or_odd' i with ⟨k, rfl | rfl⟩
    · rw [twin_two_mul]; omega
    · rw [twin_two_mul_add]; omega
  rcases tri_mem hv hi (ht i hi hx) (hv.twin_live _ hi) h with g | g | g
  · exact twin_ne _ g
  · rw [g] at e; exact a e.symm
  · rw [g] at e; exact b e.symm

/-- Every triangle has a first side. -/
theorem exists_first (hv : m.Valid) (ht : m.TriFaces) (hl : m.NoLoops) {a : ℕ} (ha : m.heLive a) (hx : ¬ m.ext a) :
    ∃ i, m.heLive i ∧ ¬ m.ext i ∧ sideFirst m i ∧ m.heFace i = m.heFace a ∧ (a = i ∨ a = m.heNext i ∨ a = m.heNext (m.heNext i)) := by
  obtain ⟨h1, h2, h3⟩ := tri_halves hv ht hl ha hx
  have l1 := hv.next_live _ ha
  have l2 := hv.next_live _ l1
  have t := ht a ha hx
  have f1 := hv.face_next ha
  have f2 := (hv.face_next l1).trans f1
  have x1 : ¬ m.ext (m.heNext a) := by rwa [ext_next' hv ha]
  have x2 : ¬ m.ext (m.heNext (m.heNext a)) := by rwa [ext_next' hv l1]
  by_cases c1 : a / 2 < m.heNext a / 2
  · by_cases c2 : a / 2 < m.heNext (m.heNext a) / 2
    · exact ⟨a, ha, hx, ⟨c1, c2⟩, rfl, .inl rfl⟩
    · refine ⟨_, l2, x2, ⟨?_, ?_⟩, f2, .inr (.inl t.symm)⟩
      · rw [t]; omega
      · rw [t]; omega
  · by_cases c2 : m.heNext a / 2 < m.heNext (m.heNext a) / 2
    · refine ⟨_, l1, x1, ⟨c2, ?_⟩, f1, .inr (.inr t.symm)⟩
      rw [t]; omega
    · refine ⟨_, l2, x2, ⟨?_, ?_⟩, f2, .inr (.inl t.symm)⟩
      · rw [t]; omega
      · rw [t]; omega

end

theorem loopMark_fold {P : Type} (m : Mesh) (w a b : ℕ) (es : List ℕ) : ∀ s : LoopSt P,
    (es.foldl (loopMark m w a b) s).m = s.m ∧ (es.foldl (loopMark m w a b) s).pos = s.pos ∧ (es.foldl (loopMark m w a b) s).origV = s.origV ∧
    (∀ e, e ∉ es → (es.foldl (loopMark m w a b) s).origE e = s.origE e) ∧
    (es.foldl (loopMark m w a b) s).toFlip = s.toFlip ++ es.filter (fun e =>
      s.origV (m.otherVertex e w) && m.otherVertex e w != a && m.otherVertex e w != b) := by
  induction es with
  | nil => intro s; simp
  | cons e es ih =>
    intro s
    rw [List.foldl_cons]
    obtain ⟨h1, h2, h3, h4, h5⟩ := ih (loopMark m w a b s e)
    refine ⟨h1, h2, h3, fun x hx => ?_, ?_⟩
    · rw [List.mem_cons, not_or] at hx
      rw [h4 x hx.2]; unfold loopMark; simp only; rw [Function.update_of_ne hx.1]
    · rw [h5]
      have o : (loopMark m w a b s e).origV = s.origV := rfl
      rw [o, List.filter_cons]
      unfold loopMark; simp only
      split_ifs <;> simp

/-- State after the edges before `n`. -/
structure LInv {P : Type} (m : Mesh) (pos splitP : ℕ → P) (n : ℕ) (pc : ℕ → ℕ → ℕ) (s : LoopSt P) : Prop where
  valid : s.m.Valid
  vFill : s.m.nVFill = m.nVFill + subRk m n
  heFill : s.m.nHeFill = m.nHeFill + 2 * (subRk m n + subIn m n)
  fFill : s.m.nFFill = m.nFFill + subIn m n
  c_v : s.m.nV = m.nV + subRk m n
  c_e : s.m.nE = m.nE + subRk m n + subIn m n
  c_f : s.m.nF = m.nF + subIn m n
  c_bl : s.m.nBL = m.nBL
  live : ∀ x, s.m.heLive x ↔ ∃ i t, okPc m n i t ∧ x = pc i t
  inj : ∀ i t i' t', okPc m n i t → okPc m n i' t' → pc i t = pc i' t' → i = i' ∧ t = t'
  un : ∀ i, m.heLive i → n ≤ i / 2 → pc i 0 = i
  old : ∀ i t, okPc m n i t → pc i t < m.nHeFill → m.heLive (pc i t)
  tw1 : ∀ i, m.heLive i → i / 2 < n → twin (pc i 0) = pc (twin i) 1
  tw2 : ∀ i, m.heLive i → ¬ m.ext i → i / 2 < n → pc i 2 % 2 = 0 ∧ pc i 3 = pc i 2 + 1
  tab : ∀ i, m.heLive i → ¬ m.ext i → sideFirst m i → Tab n pc s.m.heNext i (m.heNext i) (m.heNext (m.heNext i))
  x1 : ∀ i, m.heLive i → m.ext i → i / 2 < n → s.m.heNext (pc i 0) = pc i 1 ∧ s.m.heNext (pc i 1) = pc (m.heNext i) 0
  x0 : ∀ i, m.heLive i → m.ext i → n ≤ i / 2 → s.m.heNext (pc i 0) = pc (m.heNext i) 0
  v0 : ∀ i, m.heLive i → s.m.heVertex (pc i 0) = m.heVertex i
  v1 : ∀ i, m.heLive i → i / 2 < n → s.m.heVertex (pc i 1) = m.nVFill + subRk m (i / 2)
  v2 : ∀ i, m.heLive i → ¬ m.ext i → i / 2 < n → s.m.heVertex (pc i 2) = m.nVFill + subRk m (i / 2)
  ex : ∀ i t, okPc m n i t → (s.m.ext (pc i t) ↔ m.ext i)
  origV : ∀ v, s.origV v = !decide (m.nVFill ≤ v ∧ v < m.nVFill + subRk m n)
  origE : ∀ e, n ≤ e → e < m.nEFill → s.origE e = true
  flips : ∀ x, x ∈ s.toFlip ↔ ∃ i, m.heLive i ∧ ¬ m.ext i ∧ sideFirst m i ∧ i / 2 < n ∧ x = pc i 2 / 2
  nodup : s.toFlip.Nodup
  pos_o : ∀ v, v < m.nVFill → s.pos v = pos v
  pos_n : ∀ e, e < n → m.heLive (2 * e) → s.pos (m.nVFill + subRk m e) = splitP e

section
variable {P : Type} {m : Mesh} {pos splitP : ℕ → P}

theorem LInv.zero (hv : m.Valid) (ht : m.TriFaces) : LInv m pos splitP 0 (fun i _ => i) ⟨m, pos, fun _ => true, fun _ => true, []⟩ := by
  have r0 : subRk m 0 = 0 := rfl
  have ok : ∀ i t, okPc m 0 i t ↔ m.heLive i ∧ t = 0 := fun i t => by unfold okPc; simp
  constructor <;> simp [r0, hv, subIn, ok]
  · intro i t i' t' _ h _ h' e; exact ⟨e, h.trans h'.symm⟩
  · intro i hi _; exact hi
  · intro i hi hx _
    exact ⟨fun _ => ⟨rfl, rfl, ht i hi hx⟩, fun h => by omega, fun h => by omega, fun h => by omega, fun h => by omega, fun h => by omega⟩
  · intros; omega

theorem okPc_of {n c t : ℕ} (h1 : m.heLive c) (h2 : ¬ m.ext c) (h3 : t ≤ 3) (h4 : t = 0 ∨ c / 2 < n) : okPc m n c t := by
  refine ⟨h1, ?_⟩
  rcases h4 with h4 | h4
  · exact .inl h4
  · by_cases c0 : t = 0
    · exact .inl c0
    · by_cases c1 : t = 1
      · exact .inr ⟨h4, .inl c1⟩
      · exact .inr ⟨h4, .inr ⟨h2, by omega⟩⟩

/-- The triangle around a side that has not been split. -/
theorem LInv.side (hv : m.Valid) (ht : m.TriFaces) (hl : m.NoLoops) {n : ℕ} {pc : ℕ → ℕ → ℕ} {s : LoopSt P} (I : LInv m pos splitP n pc s)
    {a : ℕ} (ha : m.heLive a) (hx : ¬ m.ext a) (han : a / 2 = n) :
    ∃ c2 t2 c3 t3, okPc m n c2 t2 ∧ okPc m n c3 t3 ∧ m.heFace c2 = m.heFace a ∧ m.heFace c3 = m.heFace a ∧
      s.m.heNext a = pc c2 t2 ∧ s.m.heNext (s.m.heNext a) = pc c3 t3 ∧ s.m.heNext (s.m.heNext (s.m.heNext a)) = a ∧
      (sideFirst m a → (c3, t3) = (m.heNext (m.heNext a), 0)) ∧ (¬ sideFirst m a → t3 = 1 ∨ t3 = 2) := by
  obtain ⟨i, li, xi, hf, ef, mem⟩ := exists_first hv ht hl ha hx
  have T := I.tab i li xi hf
  obtain ⟨n1, n2, n3⟩ := T.around_next hf.1 hf.2 mem han
  obtain ⟨m1, m2, q1, q2, o1, o2⟩ := around_ok hf.1 hf.2 han mem
  have fc : ∀ c, c = i ∨ c = m.heNext i ∨ c = m.heNext (m.heNext i) → m.heLive c ∧ m.heFace c = m.heFace a ∧ ¬ m.ext c := by
    have l1 := hv.next_live _ li
    have l2 := hv.next_live _ l1
    have f1 := hv.face_next li
    have f2 := (hv.face_next l1).trans f1
    rintro c (rfl | rfl | rfl)
    · exact ⟨li, ef, xi⟩
    · exact ⟨l1, f1.trans ef, by rwa [ext_next' hv li]⟩
    · exact ⟨l2, f2.trans ef, by rwa [ext_next' hv l1, ext_next' hv li]⟩
  have un := I.un a ha (by omega)
  rw [un] at n1 n3
  refine ⟨_, _, _, _, okPc_of (fc _ m1).1 (fc _ m1).2.2 q1 o1, okPc_of (fc _ m2).1 (fc _ m2).2.2 q2 o2, (fc _ m1).2.1, (fc _ m2).2.1, n1, by rw [n1]; exact n2,
    by rw [n1, n2]; exact n3, ?_, ?_⟩
  · intro h
    have : a = i := by
      have ti := ht i li xi
      rcases mem with g | g | g
      · exact g
      · have h2 := h.2; rw [g, ti] at h2; have := hf.1; omega
      · have h2 := h.1; rw [g, ti] at h2; have := hf.2; omega
    subst this
    unfold around; rw [if_pos rfl]
  · intro h
    have : a ≠ i := fun e => h (e ▸ hf)
    unfold around; rw [if_neg this]; split_ifs <;> simp

/-- The vertex opposite to a side that has not been split. -/
theorem LInv.opposite (hv : m.Valid) (ht : m.TriFaces) (hl : m.NoLoops) {n : ℕ} {pc : ℕ → ℕ → ℕ} {s : LoopSt P} (I : LInv m pos splitP n pc s)
    {a : ℕ} (ha : m.heLive a) (hx : ¬ m.ext a) (han : a / 2 = n) :
    (sideFirst m a → s.m.heVertex (s.m.heNext (s.m.heNext a)) < m.nVFill ∧ s.m.heVertex (s.m.heNext (s.m.heNext a)) ≠ m.heVertex a ∧
      s.m.heVertex (s.m.heNext (s.m.heNext a)) ≠ m.heVertex (twin a)) ∧
    (¬ sideFirst m a → m.nVFill ≤ s.m.heVertex (s.m.heNext (s.m.heNext a)) ∧
      s.m.heVertex (s.m.heNext (s.m.heNext a)) < m.nVFill + subRk m n) := by
  obtain ⟨c2, t2, c3, t3, k2, k3, g2, g3, nA1, nA2, nA3, f1, f2⟩ := I.side hv ht hl ha hx han
  rw [nA2]
  constructor
  · intro h
    have e := f1 h
    simp only [Prod.mk.injEq] at e
    rw [e.1, e.2]
    have l1 := hv.next_live _ ha
    have l2 := hv.next_live _ l1
    rw [I.v0 _ l2]
    refine ⟨(hv.vertex_live _ l2).1, ?_, ?_⟩
    · have := hl _ l2; rwa [← hv.vertex_next l2, ht a ha hx] at this
    · have := hl _ l1; rw [← hv.vertex_next l1] at this; rw [← hv.vertex_next ha]; exact this.symm
  · intro h
    have : c3 / 2 < n := by
      rcases k3.2 with h0 | h0
      · have := f2 h; omega
      · exact h0.1
    have lt := subRk_lt hv k3.1 this
    rcases f2 h with e | e
    · rw [e, I.v1 _ k3.1 this]; omega
    · have : ¬ m.ext c3 := by unfold ext at hx ⊢; rw [g3]; exact hx
      rw [e, I.v2 _ k3.1 this (by assumption)]; omega

end
end GC
