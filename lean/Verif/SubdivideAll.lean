import Verif.SubdivideFace

/-! # The loop over the faces in subdivide.cpp -/

namespace GC
open Mesh

/-- Number of live faces before `n`. -/
def subRf (m : Mesh) (n : ℕ) : ℕ := Nat.count (fun f => m.fHalfedge f ≠ INV) n

/-- Number of sides of the faces before `n`. -/
def subSides (m : Mesh) (n : ℕ) : ℕ := ((Finset.range m.nHeFill).filter fun i => m.heLive i ∧ m.heFace i < n).card

section
variable {m : Mesh}

/-- First part of the halfedge `i`. -/
def partA (m : Mesh) (i : ℕ) : ℕ := subFst m m.nEFill i
/-- Second part of the halfedge `i`. -/
def partB (m : Mesh) (i : ℕ) : ℕ := subSnd m m.nEFill i

theorem live_half_lt (hv : m.Valid) {i : ℕ} (hi : m.heLive i) : i / 2 < m.nEFill := by
  have := hi.1; have := hv.he_fill; omega

theorem partA_inj (hv : m.Valid) {i j : ℕ} (hi : m.heLive i) (hj : m.heLive j) (h : partA m i = partA m j) : i = j :=
  subFst_inj hv hi hj h

theorem partB_inj (hv : m.Valid) {i j : ℕ} (hi : m.heLive i) (hj : m.heLive j) (h : partB m i = partB m j) : i = j :=
  subSnd_inj hv hi hj h

theorem partA_ne_B (hv : m.Valid) {i j : ℕ} (hi : m.heLive i) (hj : m.heLive j) : partA m i ≠ partB m j :=
  subFst_ne_snd hv hi hj (live_half_lt hv hi)

theorem twin_partA (hv : m.Valid) {i : ℕ} (hi : m.heLive i) : GC.twin (partA m i) = partB m (GC.twin i) := by
  have fill := hv.he_fill
  have h1 := live_half_lt hv hi
  rcases Nat.even_or_odd' i with ⟨k, rfl | rfl⟩
  · unfold partA partB subFst subSnd
    rw [twin_two_mul, if_pos (by omega), if_pos (by omega), show 2 * k / 2 = k by omega, show (2 * k + 1) / 2 = k by omega, fill,
      show 2 * m.nEFill + 2 * subRk m k = 2 * (m.nEFill + subRk m k) by omega, twin_two_mul]
  · unfold partA partB subFst subSnd
    rw [twin_two_mul_add, if_neg (by omega), if_neg (by omega), twin_two_mul_add]

theorem subSides_succ (n : ℕ) : subSides m (n + 1) =
    subSides m n + ((Finset.range m.nHeFill).filter fun i => m.heLive i ∧ m.heFace i = n).card := by
  unfold subSides
  rw [← Finset.card_union_of_disjoint]
  · congr 1; ext i
    simp only [Finset.mem_filter, Finset.mem_union]
    constructor
    · rintro ⟨a, b, c⟩
      by_cases h : m.heFace i = n
      · exact .inr ⟨a, b, h⟩
      · exact .inl ⟨a, b, by omega⟩
    · rintro (⟨a, b, c⟩ | ⟨a, b, c⟩)
      · exact ⟨a, b, by omega⟩
      · exact ⟨a, b, by omega⟩
  · rw [Finset.disjoint_left]
    intro i h1 h2
    simp only [Finset.mem_filter] at h1 h2
    omega

end

section
variable {P : Type} {m : Mesh} {pos splitE : ℕ → P} {s1 : SubSt P}

theorem EInv.partA_live (hv : m.Valid) (E : EInv m pos splitE m.nEFill s1) {i : ℕ} (hi : m.heLive i) : s1.m.heLive (partA m i) := by
  rw [E.live]; unfold partA subFst; split_ifs with c
  · right; have := subRk_lt hv hi c.2; omega
  · exact .inl hi

theorem EInv.partB_live (hv : m.Valid) (E : EInv m pos splitE m.nEFill s1) {i : ℕ} (hi : m.heLive i) : s1.m.heLive (partB m i) := by
  rw [E.live]; unfold partB subSnd; split_ifs with c
  · right; have := subRk_lt hv hi c.2; omega
  · exact .inl hi

theorem EInv.cover (hv : m.Valid) (E : EInv m pos splitE m.nEFill s1) {x : ℕ} (hx : s1.m.heLive x) :
    ∃ i, m.heLive i ∧ (x = partA m i ∨ x = partB m i) := by
  have fill := hv.he_fill
  rcases (E.live x).1 hx with h | ⟨h1, h2⟩
  · refine ⟨x, h, ?_⟩
    have := live_half_lt hv h
    unfold partA partB subFst subSnd
    by_cases c : x % 2 = 0
    · right; rw [if_neg (by omega)]
    · left; rw [if_neg (by omega)]
  · obtain ⟨e, he, le, hr⟩ := subRk_surj (m := m) (n := m.nEFill) (r := (x - m.nHeFill) / 2) (by omega)
    by_cases c : x % 2 = 0
    · refine ⟨2 * e, le, .inl ?_⟩
      unfold partA subFst; rw [if_pos (by omega), show 2 * e / 2 = e by omega, hr]; omega
    · refine ⟨2 * e + 1, by have := hv.twin_live _ le; rwa [twin_two_mul] at this, .inr ?_⟩
      unfold partB subSnd; rw [if_pos (by omega), show (2 * e + 1) / 2 = e by omega, hr]; omega

end

/-- State after the faces before `n`; `s1` is the state after the loop over the edges. -/
structure FInv {P : Type} (m : Mesh) (s1 : SubSt P) (splitF : ℕ → P) (n : ℕ) (s : SubSt P) (inn : ℕ → ℕ) : Prop where
  valid : s.m.Valid
  live : ∀ x, s.m.heLive x ↔ s1.m.heLive x ∨ ∃ i, m.heLive i ∧ m.heFace i < n ∧ (x = inn i ∨ x = inn i + 1)
  ev : ∀ i, m.heLive i → m.heFace i < n → inn i % 2 = 0
  ge : ∀ i, m.heLive i → m.heFace i < n → s1.m.nHeFill ≤ inn i
  inj : ∀ i j, m.heLive i → m.heFace i < n → m.heLive j → m.heFace j < n → inn i = inn j → i = j
  n_fst : ∀ i, m.heLive i → m.heFace i < n → s.m.heNext (partA m i) = inn i
  n_inn : ∀ i, m.heLive i → m.heFace i < n → s.m.heNext (inn (m.heNext i)) = inn i + 1
  n_out : ∀ i, m.heLive i → m.heFace i < n → s.m.heNext (inn i + 1) = partB m i
  n_snd : ∀ i, m.heLive i → s.m.heNext (partB m i) = partA m (m.heNext i)
  n_un : ∀ i, m.heLive i → n ≤ m.heFace i → s.m.heNext (partA m i) = partB m i
  v1 : ∀ i, m.heLive i → s.m.heVertex (partA m i) = m.heVertex i
  v2 : ∀ i, m.heLive i → s.m.heVertex (partB m i) = m.nVFill + subRk m (i / 2)
  v_inn : ∀ i, m.heLive i → m.heFace i < n → s.m.heVertex (inn i) = m.nVFill + subRk m (i / 2)
  v_out : ∀ i, m.heLive i → m.heFace i < n → s.m.heVertex (inn i + 1) = s1.m.nVFill + subRf m (m.heFace i)
  f_un : ∀ i, m.heLive i → n ≤ m.heFace i → m.heFace i < m.nFFill → s.m.heFace (partA m i) = m.heFace i ∧ s.m.heFace (partB m i) = m.heFace i
  f_pr : ∀ i, m.heLive i → m.heFace i < n → ∀ x, (x = partA m i ∨ x = partB m i ∨ x = inn i ∨ x = inn i + 1) →
    ¬ s.m.ext x ∧ (s.m.heFace x < n ∨ m.nFFill ≤ s.m.heFace x)
  f_ext : ∀ i, m.heLive i → m.ext i → s.m.ext (partA m i) ∧ s.m.ext (partB m i)
  fh : ∀ g, n ≤ g → g < m.nFFill → s.m.fHalfedge g = m.fHalfedge g
  vFill : s.m.nVFill = s1.m.nVFill + subRf m n
  heFill : s.m.nHeFill = s1.m.nHeFill + 4 * subSides m n
  fFill : s.m.nFFill + subRf m n = m.nFFill + 2 * subSides m n
  fGe : m.nFFill ≤ s.m.nFFill
  c_v : s.m.nV = s1.m.nV + subRf m n
  c_bl : s.m.nBL = m.nBL
  c_fe : s.m.nF + s1.m.nE + subRf m n = m.nF + s.m.nE
  origV : ∀ v, s.origV v = !decide (m.nVFill ≤ v ∧ v < s.m.nVFill)
  origF : ∀ g, n ≤ g → g < m.nFFill → s.origF g = true
  pos_o : ∀ v, v < s1.m.nVFill → s.pos v = s1.pos v
  pos_n : ∀ g, g < n → m.fHalfedge g ≠ INV → s.pos (s1.m.nVFill + subRf m g) = splitF g

section
variable {P : Type} {m : Mesh} {pos splitE splitF : ℕ → P} {s1 : SubSt P}

theorem FInv.zero (hv : m.Valid) (E : EInv m pos splitE m.nEFill s1) : FInv m s1 splitF 0 s1 (fun _ => 0) := by
  have r0 : subRf m 0 = 0 := rfl
  have i0 : subSides m 0 = 0 := by unfold subSides; simp
  have hl := fun {i} => live_half_lt hv (i := i)
  have hfE := E.fFill
  exact {
    valid := E.valid, live := by simp, ev := by simp, ge := by simp, inj := by simp
    n_fst := by simp, n_inn := by simp, n_out := by simp
    n_snd := fun i hi => E.next2 i hi, n_un := fun i hi _ => E.next1 i hi (hl hi)
    v1 := fun i hi => E.v1 i hi, v2 := fun i hi => E.v2 i hi (hl hi), v_inn := by simp, v_out := by simp
    f_un := fun i hi _ _ => ⟨E.f1 i hi, E.f2 i hi⟩, f_pr := by simp
    f_ext := fun i hi h => by
      unfold partA partB Mesh.ext at *; rw [E.f1 i hi, E.f2 i hi, hfE]; exact ⟨h, h⟩
    fh := fun g _ _ => by rw [E.fh]
    vFill := by rw [r0]; rfl
    heFill := by rw [i0]; rfl
    fFill := by rw [r0, i0, hfE]
    fGe := hfE.ge
    c_v := by rw [r0]; rfl
    c_bl := E.c_bl
    c_fe := by rw [r0, E.c_f]; rfl
    origV := fun v => by rw [E.origV, E.vFill]
    origF := fun g _ _ => E.origF g, pos_o := fun _ _ => rfl, pos_n := by simp }

theorem FInv.step (hv : m.Valid) (E : EInv m pos splitE m.nEFill s1) {n : ℕ} (hn : n < m.nFFill) {s : SubSt P} {inn : ℕ → ℕ}
    (I : FInv m s1 splitF n s inn) :
    (∃ s' inn', splitFaceStep splitF s n = .ok s' ∧ FInv m s1 splitF (n + 1) s' inn') ∨
      (splitFaceStep splitF s n = .error .oom ∧ ∃ d, s.m.nearLimit d ∧ subSides m n * 2 + d ≤ 2 * subSides m (n + 1)) := by
  classical
  have fg := I.fGe
  have efh := I.fh n le_rfl hn
  by_cases hl : m.fHalfedge n ≠ INV
  swap
  · -- the face does not exist
    push Not at hl
    left
    refine ⟨s, inn, ?_, ?_⟩
    · unfold splitFaceStep; rw [if_pos]; intro h; exact h.2 (efh.trans hl)
    have nl : ∀ i, m.heLive i → m.heFace i ≠ n := fun i hi h => (hv.face_live i hi).2 (by rw [h]; exact hl)
    have c : ∀ {i}, m.heLive i → m.heFace i < n + 1 → m.heFace i < n := fun {i} hi h => by have := nl i hi; omega
    have r : subRf m (n + 1) = subRf m n := by unfold subRf; rw [Nat.count_succ, if_neg (by simpa using hl), Nat.add_zero]
    have sd : subSides m (n + 1) = subSides m n := by
      rw [subSides_succ, Finset.card_eq_zero.2, Nat.add_zero]
      rw [Finset.filter_eq_empty_iff]
      intro i _ h; exact nl i h.1 h.2
    exact {
      valid := I.valid
      live := fun x => by
        rw [I.live]
        constructor
        · rintro (h | ⟨i, a, b, h⟩)
          · exact .inl h
          · exact .inr ⟨i, a, by omega, h⟩
        · rintro (h | ⟨i, a, b, h⟩)
          · exact .inl h
          · exact .inr ⟨i, a, c a b, h⟩
      ev := fun i a b => I.ev i a (c a b), ge := fun i a b => I.ge i a (c a b)
      inj := fun i j a b a' b' => I.inj i j a (c a b) a' (c a' b')
      n_fst := fun i a b => I.n_fst i a (c a b), n_inn := fun i a b => I.n_inn i a (c a b), n_out := fun i a b => I.n_out i a (c a b)
      n_snd := I.n_snd, n_un := fun i a b => I.n_un i a (by omega), v1 := I.v1, v2 := I.v2
      v_inn := fun i a b => I.v_inn i a (c a b), v_out := fun i a b => I.v_out i a (c a b)
      f_un := fun i a b => I.f_un i a (by omega)
      f_pr := fun i a b x hx => ⟨(I.f_pr i a (c a b) x hx).1, (I.f_pr i a (c a b) x hx).2.imp (by omega) id⟩
      f_ext := I.f_ext, fh := fun g h => I.fh g (by omega)
      vFill := by rw [r]; exact I.vFill
      heFill := by rw [sd]; exact I.heFill
      fFill := by rw [r, sd]; exact I.fFill
      fGe := I.fGe
      c_v := by rw [r]; exact I.c_v
      c_bl := I.c_bl
      c_fe := by rw [r]; exact I.c_fe
      origV := I.origV, origF := fun g h => I.origF g (by omega), pos_o := I.pos_o
      pos_n := fun g h hg => I.pos_n g (by have : g ≠ n := fun e => hg (e ▸ hl); omega) hg }
  have hf : s.m.fLive n := ⟨.inl (by omega), by rw [efh]; exact hl⟩
  have r : subRf m (n + 1) = subRf m n + 1 := by unfold subRf; rw [Nat.count_succ, if_pos hl]
  have oldA : ∀ {i}, m.heLive i → s.m.heLive (partA m i) := fun {i} hi => (I.live _).2 (.inl (E.partA_live hv hi))
  have oldB : ∀ {i}, m.heLive i → s.m.heLive (partB m i) := fun {i} hi => (I.live _).2 (.inl (E.partB_live hv hi))
  have vv := E.vFill
  have ivf := I.vFill
  -- the halfedges of face n
  have kind : ∀ x, s.m.heLive x → s.m.heFace x = n → ∃ i, (m.heLive i ∧ m.heFace i = n) ∧ (x = partA m i ∨ x = partB m i) := by
    intro x hx hxn
    rcases (I.live x).1 hx with h | ⟨i, a, b, h⟩
    · obtain ⟨i, hi, h⟩ := E.cover hv h
      refine ⟨i, ⟨hi, ?_⟩, h⟩
      by_cases c1 : m.heFace i < n
      · have := (I.f_pr i hi c1 x (by tauto)).2; omega
      by_cases c2 : m.ext i
      · have := I.f_ext i hi c2
        unfold Mesh.ext at this
        rcases h with rfl | rfl <;> omega
      · have := I.f_un i hi (by omega) (Valid.face_lt c2)
        rcases h with rfl | rfl
        · exact this.1.symm.trans hxn
        · exact this.2.symm.trans hxn
    · have := (I.f_pr i a b x (by tauto)).2; omega
  have mem : ∀ x, (s.m.heLive x ∧ s.m.heFace x = n) ↔ ∃ i, (m.heLive i ∧ m.heFace i = n) ∧ (x = partA m i ∨ x = partB m i) := by
    intro x
    constructor
    · rintro ⟨a, b⟩; exact kind x a b
    · rintro ⟨i, ⟨a, b⟩, h⟩
      have := I.f_un i a (by omega) (by omega)
      rcases h with rfl | rfl
      · exact ⟨oldA a, this.1.trans b⟩
      · exact ⟨oldB a, this.2.trans b⟩
  have F : FaceIn s.m n (fun i => m.heLive i ∧ m.heFace i = n) m.heNext (partA m) (partB m) s.origV := {
    nx_mem := fun i hi => ⟨hv.next_live i hi.1, (hv.face_next hi.1).trans hi.2⟩
    mem := mem
    n1 := fun i hi => I.n_un i hi.1 (by omega)
    n2 := fun i hi => I.n_snd i hi.1
    inj1 := fun i j hi hj h => partA_inj hv hi.1 hj.1 h
    inj2 := fun i j hi hj h => partB_inj hv hi.1 hj.1 h
    dis := fun i j hi hj => partA_ne_B hv hi.1 hj.1
    o1 := fun i hi => by
      rw [I.v1 i hi.1, I.origV]; have := (hv.vertex_live i hi.1).1; simp; omega
    o2 := fun i hi => by
      rw [I.v2 i hi.1, I.origV]; have := subRk_lt hv hi.1 (live_half_lt hv hi.1); simp; omega }
  -- their number
  have cardL : ∃ L : Finset ℕ, (∀ x, x ∈ L ↔ s.m.heLive x ∧ s.m.heFace x = n) ∧ L.card + 2 * subSides m n = 2 * subSides m (n + 1) := by
    refine ⟨(((Finset.range m.nHeFill).filter fun i => m.heLive i ∧ m.heFace i = n).image (partA m)) ∪
      (((Finset.range m.nHeFill).filter fun i => m.heLive i ∧ m.heFace i = n).image (partB m)), fun x => ?_, ?_⟩
    · rw [mem]
      simp only [Finset.mem_union, Finset.mem_image, Finset.mem_filter, Finset.mem_range]
      constructor
      · rintro (⟨i, a, h⟩ | ⟨i, a, h⟩)
        · exact ⟨i, a.2, .inl h.symm⟩
        · exact ⟨i, a.2, .inr h.symm⟩
      · rintro ⟨i, a, h | h⟩
        · exact .inl ⟨i, ⟨a.1.1, a⟩, h.symm⟩
        · exact .inr ⟨i, ⟨a.1.1, a⟩, h.symm⟩
    · rw [Finset.card_union_of_disjoint, Finset.card_image_of_injOn, Finset.card_image_of_injOn, subSides_succ]
      · omega
      · intro i hi j hj h; simp at hi hj; exact partB_inj hv hi.2.1 hj.2.1 h
      · intro i hi j hj h; simp at hi hj; exact partA_inj hv hi.2.1 hj.2.1 h
      · rw [Finset.disjoint_left]
        intro x h1 h2
        simp only [Finset.mem_image, Finset.mem_filter] at h1 h2
        obtain ⟨i, a, rfl⟩ := h1
        obtain ⟨j, b, h⟩ := h2
        exact partA_ne_B hv a.2.1 b.2.1 h.symm
  obtain ⟨L, hL, hLc⟩ := cardL
  rcases splitFaceStep_ok (splitF := splitF) I.valid hf (by omega) (I.origF n le_rfl hn) F with ⟨s', new, d, e, O⟩ | ⟨e, d, lim, hd⟩
  swap
  · right; refine ⟨e, d, lim, ?_⟩
    have := hd L hL; omega
  left
  have hdc := O.card L hL
  have hlt : ∀ {i}, m.heLive i → m.heFace i ≠ n → s.m.heFace (partA m i) ≠ n ∧ s.m.heFace (partB m i) ≠ n := by
    intro i hi h
    constructor
    · intro c
      obtain ⟨j, ⟨a, b⟩, hx | hx⟩ := kind _ (oldA hi) c
      · rw [partA_inj hv hi a hx] at h; exact h b
      · exact partA_ne_B hv hi a hx
    · intro c
      obtain ⟨j, ⟨a, b⟩, hx | hx⟩ := kind _ (oldB hi) c
      · exact partA_ne_B hv a hi hx.symm
      · rw [partB_inj hv hi a hx] at h; exact h b
  have spoke : ∀ {i x}, m.heLive i → m.heFace i < n → (x = inn i ∨ x = inn i + 1) → s.m.heLive x ∧ s.m.heFace x ≠ n ∧ ¬ s.m.ext x := by
    intro i x hi h hx
    have := I.f_pr i hi h x (by tauto)
    exact ⟨(I.live x).2 (.inr ⟨i, hi, h, hx⟩), by omega, this.1⟩
  have cs : ∀ {i}, m.heFace i < n + 1 → m.heFace i ≠ n → m.heFace i < n := fun h h' => by omega
  have nxf : ∀ {i}, m.heLive i → m.heFace (m.heNext i) = m.heFace i := fun hi => hv.face_next hi
  refine ⟨s', fun i => if m.heFace i = n then new i else inn i, e, ?_⟩
  exact {
    valid := O.valid
    live := fun x => by
      rw [O.live, I.live]
      constructor
      · rintro ((h | ⟨i, a, b, h⟩) | ⟨i, a, h⟩)
        · exact .inl h
        · exact .inr ⟨i, a, by omega, by rw [if_neg (by omega)]; exact h⟩
        · exact .inr ⟨i, a.1, by omega, by rw [if_pos a.2]; exact h⟩
      · rintro (h | ⟨i, a, b, h⟩)
        · exact .inl (.inl h)
        · by_cases c : m.heFace i = n
          · rw [if_pos c] at h; exact .inr ⟨i, ⟨a, c⟩, h⟩
          · rw [if_neg c] at h; exact .inl (.inr ⟨i, a, cs b c, h⟩)
    ev := fun i a b => by
      by_cases c : m.heFace i = n
      · rw [if_pos c]; exact O.ev i ⟨a, c⟩
      · rw [if_neg c]; exact I.ev i a (cs b c)
    ge := fun i a b => by
      by_cases c : m.heFace i = n
      · rw [if_pos c]; have := O.ge i ⟨a, c⟩; have := I.heFill; omega
      · rw [if_neg c]; exact I.ge i a (cs b c)
    inj := fun i j a b a' b' h => by
      by_cases c : m.heFace i = n <;> by_cases c' : m.heFace j = n
      · rw [if_pos c, if_pos c'] at h; exact O.inj i j ⟨a, c⟩ ⟨a', c'⟩ h
      · rw [if_pos c, if_neg c'] at h
        have := O.ge i ⟨a, c⟩; have := (spoke a' (cs b' c') (.inl rfl)).1.1; omega
      · rw [if_neg c, if_pos c'] at h
        have := O.ge j ⟨a', c'⟩; have := (spoke a (cs b c) (.inl rfl)).1.1; omega
      · rw [if_neg c, if_neg c'] at h; exact I.inj i j a (cs b c) a' (cs b' c') h
    n_fst := fun i a b => by
      by_cases c : m.heFace i = n
      · rw [if_pos c]; exact O.n_fst i ⟨a, c⟩
      · rw [if_neg c, O.n_o _ (oldA a) (hlt a c).1]; exact I.n_fst i a (cs b c)
    n_inn := fun i a b => by
      rw [nxf a]
      by_cases c : m.heFace i = n
      · rw [if_pos c, if_pos c]; exact O.n_inn i ⟨a, c⟩
      · have := spoke (hv.next_live i a) (by rw [nxf a]; exact cs b c) (.inl rfl)
        rw [if_neg c, if_neg c, O.n_o _ this.1 this.2.1]; exact I.n_inn i a (cs b c)
    n_out := fun i a b => by
      by_cases c : m.heFace i = n
      · rw [if_pos c]; exact O.n_out i ⟨a, c⟩
      · have := spoke a (cs b c) (.inr rfl)
        rw [if_neg c, O.n_o _ this.1 this.2.1]; exact I.n_out i a (cs b c)
    n_snd := fun i a => by
      by_cases c : m.heFace i = n
      · exact O.n_snd i ⟨a, c⟩
      · rw [O.n_o _ (oldB a) (hlt a c).2]; exact I.n_snd i a
    n_un := fun i a b => by
      rw [O.n_o _ (oldA a) (hlt a (by omega)).1]; exact I.n_un i a (by omega)
    v1 := fun i a => by rw [O.v_o _ (oldA a)]; exact I.v1 i a
    v2 := fun i a => by rw [O.v_o _ (oldB a)]; exact I.v2 i a
    v_inn := fun i a b => by
      by_cases c : m.heFace i = n
      · rw [if_pos c, O.v_inn i ⟨a, c⟩]; exact I.v2 i a
      · rw [if_neg c, O.v_o _ (spoke a (cs b c) (.inl rfl)).1]; exact I.v_inn i a (cs b c)
    v_out := fun i a b => by
      by_cases c : m.heFace i = n
      · rw [if_pos c, O.v_out i ⟨a, c⟩, c]; exact I.vFill
      · rw [if_neg c, O.v_o _ (spoke a (cs b c) (.inr rfl)).1]; exact I.v_out i a (cs b c)
    f_un := fun i a b c => by
      have u := I.f_un i a (by omega) c
      have h := hlt a (show m.heFace i ≠ n by omega)
      have x1 : ¬ s.m.ext (partA m i) := by unfold Mesh.ext; rw [u.1]; omega
      have x2 : ¬ s.m.ext (partB m i) := by unfold Mesh.ext; rw [u.2]; omega
      rw [O.f_o _ (oldA a) x1 h.1, O.f_o _ (oldB a) x2 h.2]; exact u
    f_pr := fun i a b x hx => by
      by_cases c : m.heFace i = n
      · rw [if_pos c] at hx
        have hl' : s'.m.heLive x := by
          rw [O.live]
          rcases hx with rfl | rfl | rfl | rfl
          · exact .inl (oldA a)
          · exact .inl (oldB a)
          · exact .inr ⟨i, ⟨a, c⟩, .inl rfl⟩
          · exact .inr ⟨i, ⟨a, c⟩, .inr rfl⟩
        have hff : s.m.heLive x → s.m.heFace x = n := by
          intro h
          rcases hx with rfl | rfl | rfl | rfl
          · exact ((mem _).2 ⟨i, ⟨a, c⟩, .inl rfl⟩).2
          · exact ((mem _).2 ⟨i, ⟨a, c⟩, .inr rfl⟩).2
          · have := O.ge i ⟨a, c⟩; have := h.1; omega
          · have := O.ge i ⟨a, c⟩; have := h.1; omega
        obtain ⟨q1, q2⟩ := O.f_i x hl' hff
        exact ⟨q1, by omega⟩
      · rw [if_neg c] at hx
        have q := I.f_pr i a (cs b c) x hx
        have hl' : s.m.heLive x := by
          rcases hx with rfl | rfl | rfl | rfl
          · exact oldA a
          · exact oldB a
          · exact (spoke a (cs b c) (.inl rfl)).1
          · exact (spoke a (cs b c) (.inr rfl)).1
        rw [O.f_o x hl' q.1 (by omega), O.ext x hl']
        exact ⟨q.1, by omega⟩
    f_ext := fun i a b => by
      rw [O.ext _ (oldA a), O.ext _ (oldB a)]; exact I.f_ext i a b
    fh := fun g h1 h2 => by rw [O.fh g (by omega) (by omega)]; exact I.fh g (by omega) h2
    vFill := by rw [O.vFill, r]; omega
    heFill := by rw [O.heFill]; have := I.heFill; omega
    fFill := by have := O.fFill; have := I.fFill; omega
    fGe := by
      have := O.fFill
      have : 0 < d := by
        rw [← hdc]; apply Finset.card_pos.2
        obtain ⟨q1, q2⟩ := I.valid.f_he n hf
        exact ⟨_, (hL _).2 ⟨q1, q2⟩⟩
      omega
    c_v := by rw [O.c_v, I.c_v, r]; omega
    c_bl := O.c_bl.trans I.c_bl
    c_fe := by have := O.c_fe; have := I.c_fe; omega
    origV := fun v => by
      rw [O.origV, O.vFill]
      by_cases c : v = s.m.nVFill
      · subst c; rw [Function.update_self]; simp; omega
      · rw [Function.update_of_ne c, I.origV]; congr 1; rw [decide_eq_decide]; omega
    origF := fun g h1 h2 => by rw [O.origF g (by omega) (by omega)]; exact I.origF g (by omega) h2
    pos_o := fun v h => by rw [O.pos, Function.update_of_ne (by omega), I.pos_o v h]
    pos_n := fun g h hg => by
      rw [O.pos]
      by_cases c : g = n
      · subst c; rw [← ivf, Function.update_self]
      · have : subRf m g < subRf m n := Nat.count_strict_mono (p := fun f => m.fHalfedge f ≠ INV) hg (by omega)
        rw [Function.update_of_ne (by omega), I.pos_n g (by omega) hg] }

theorem subSides_mono {a b : ℕ} (h : a ≤ b) : subSides m a ≤ subSides m b := by
  unfold subSides
  apply Finset.card_le_card
  intro i hi
  simp only [Finset.mem_filter] at hi ⊢
  exact ⟨hi.1, hi.2.1, by omega⟩

/-- The loop over all faces. -/
theorem splitFaces_ok (hv : m.Valid) (E : EInv m pos splitE m.nEFill s1) :
    (∃ s inn, splitFaces splitF s1 = .ok s ∧ FInv m s1 splitF m.nFFill s inn) ∨
      (splitFaces splitF s1 = .error .oom ∧ s1.m.nearLimit (2 * subSides m m.nFFill + m.nFFill)) := by
  unfold splitFaces
  rw [E.fFill]
  rcases foldlM_inv_err (l := List.range m.nFFill) (f := splitFaceStep splitF) (fun p s => ∃ inn, FInv m s1 splitF p.length s inn)
    (fun e => e = .oom ∧ s1.m.nearLimit (2 * subSides m m.nFFill + m.nFFill)) (s0 := s1) ⟨_, FInv.zero hv E⟩ (by
      rintro p x q s hl ⟨inn, I⟩
      have hlen := congrArg List.length hl
      simp at hlen
      have hx : x = p.length := by
        have h1 := congrArg (fun l => l[p.length]?) hl
        simp [List.getElem?_range (show p.length < m.nFFill by omega)] at h1
        exact h1.symm
      subst hx
      rcases I.step hv E (by omega) with ⟨s', inn', e, I'⟩ | ⟨e, d, lim, hd⟩
      · exact .inl ⟨s', e, inn', by simpa using I'⟩
      · refine .inr ⟨_, e, rfl, lim.mono ?_ ?_ ?_⟩
        all_goals
          have := I.vFill; have := I.heFill; have := I.fFill; have := I.c_bl; have := E.c_bl; have := E.fFill
          have := subSides_mono (m := m) (show p.length + 1 ≤ m.nFFill by omega)
          have : subRf m p.length ≤ p.length := Nat.count_le _
          omega) with ⟨s, e, inn, I⟩ | ⟨e, h, rfl, lim⟩
  · exact .inl ⟨s, inn, e, by simpa using I⟩
  · exact .inr ⟨h, lim⟩

end
end GC
