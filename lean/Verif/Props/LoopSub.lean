import Verif.LoopTurn
import Verif.IntrinsicBasic
import Verif.Props.Subdivide
import Verif.Props.Stats

/-! # Property C82: Loop subdivision -/

namespace GC
open Mesh

/-- `m'` is `m` with every edge cut in two and every triangle cut into four.  The halfedge `i` of `m` becomes `fst i` followed by `snd i`, `mid e` is the
middle of the edge `e`, and `cut i` separates the small triangle at the tail of `i` from the one in the centre. -/
structure LoopRefined (m m' : Mesh) (fst snd cut mid : ℕ → ℕ) : Prop where
  /-- the halfedges -/
  live : ∀ x, m'.heLive x ↔ ∃ i, m.heLive i ∧ (x = fst i ∨ x = snd i ∨ (¬ m.ext i ∧ (x = cut i ∨ x = GC.twin (cut i))))
  fst_inj : ∀ i j, m.heLive i → m.heLive j → fst i = fst j → i = j
  snd_inj : ∀ i j, m.heLive i → m.heLive j → snd i = snd j → i = j
  cut_inj : ∀ i j, m.heLive i → ¬ m.ext i → m.heLive j → ¬ m.ext j → cut i = cut j → i = j
  fst_snd : ∀ i j, m.heLive i → m.heLive j → fst i ≠ snd j
  cut_new : ∀ i j, m.heLive i → m.heLive j → ¬ m.ext j → fst i ≠ cut j ∧ fst i ≠ GC.twin (cut j) ∧ snd i ≠ cut j ∧ snd i ≠ GC.twin (cut j)
  cut_twin : ∀ i j, m.heLive i → ¬ m.ext i → m.heLive j → ¬ m.ext j → cut i ≠ GC.twin (cut j)
  /-- the two sides of the two halves of an edge -/
  twin_fst : ∀ i, m.heLive i → GC.twin (fst i) = snd (GC.twin i)
  /-- around the triangle at a corner, around the triangle in the centre, and along a boundary -/
  next_snd : ∀ i, m.heLive i → m'.heNext (snd i) = fst (m.heNext i)
  next_fst : ∀ i, m.heLive i → ¬ m.ext i → m'.heNext (fst i) = cut i
  next_cut : ∀ i, m.heLive i → ¬ m.ext i → m'.heNext (cut (m.heNext i)) = snd i
  next_mid : ∀ i, m.heLive i → ¬ m.ext i → m'.heNext (GC.twin (cut i)) = GC.twin (cut (m.heNext i))
  next_ext : ∀ i, m.heLive i → m.ext i → m'.heNext (fst i) = snd i
  /-- tails -/
  vertex_fst : ∀ i, m.heLive i → m'.heVertex (fst i) = m.heVertex i
  vertex_snd : ∀ i, m.heLive i → m'.heVertex (snd i) = mid (i / 2)
  vertex_cut : ∀ i, m.heLive i → ¬ m.ext i → m'.heVertex (cut i) = mid (i / 2)
  vertex_mid : ∀ i, m.heLive i → ¬ m.ext i → m'.heVertex (GC.twin (cut (m.heNext i))) = mid (i / 2)
  /-- what lies on a boundary -/
  ext_fst : ∀ i, m.heLive i → (m'.ext (fst i) ↔ m.ext i)
  ext_snd : ∀ i, m.heLive i → (m'.ext (snd i) ↔ m.ext i)
  ext_cut : ∀ i, m.heLive i → ¬ m.ext i → ¬ m'.ext (cut i) ∧ ¬ m'.ext (GC.twin (cut i))
  /-- the vertices -/
  vLive : ∀ v, m'.vLive v ↔ m.vLive v ∨ ∃ e, m.heLive (2 * e) ∧ v = mid e
  mid_inj : ∀ e e', m.heLive (2 * e) → m.heLive (2 * e') → mid e = mid e' → e = e'
  mid_new : ∀ e, m.heLive (2 * e) → m.nVFill ≤ mid e
  /-- the numbers of elements -/
  c_v : m'.nV = m.nV + m.nE
  c_e : m'.nE = 2 * m.nE + 3 * m.nF
  c_f : m'.nF = 4 * m.nF
  c_bl : m'.nBL = m.nBL

theorem subIn_all {m : Mesh} (hv : m.Valid) (ht : m.TriFaces) : subIn m m.nEFill = 3 * m.nF := by
  classical
  have key : ∀ n, n ≤ m.nEFill → subIn m n = Nat.count (fun i => m.heLive i ∧ ¬ m.ext i) (2 * n) := by
    intro n
    induction n with
    | zero => intro _; simp [subIn]
    | succ n ih =>
      intro hn
      have lt : m.heLive (2 * n) ↔ m.heLive (2 * n + 1) := by
        constructor
        · intro h; have := hv.twin_live _ h; rwa [twin_two_mul] at this
        · intro h; have := hv.twin_live _ h; rwa [twin_two_mul_add] at this
      have c : Nat.count (fun i => m.heLive i ∧ ¬ m.ext i) (2 * (n + 1)) = Nat.count (fun i => m.heLive i ∧ ¬ m.ext i) (2 * n) +
          (if m.heLive (2 * n) ∧ ¬ m.ext (2 * n) then 1 else 0) + (if m.heLive (2 * n + 1) ∧ ¬ m.ext (2 * n + 1) then 1 else 0) := by
        rw [show 2 * (n + 1) = 2 * n + 1 + 1 by ring, Nat.count_succ, Nat.count_succ]
      rw [subIn, ih (by omega), c]
      by_cases h : m.heLive (2 * n)
      · have hi : ¬ m.ext (2 * n) := hv.edge_int n h
        by_cases hx : m.ext (2 * n + 1)
        · simp [h, hi, hx]
        · simp [h, lt.1 h, hi, hx]
      · simp [h, mt lt.2 h]
  rw [key _ le_rfl, ← card_ints hv ht, Nat.count_eq_card_filter_range]
  unfold ints
  rw [hv.he_fill]

/-- A mesh too small for its storage to be refused by the subdivision. -/
def roomForLoop (m : Mesh) : Prop := ¬ m.nearLimit (3 * m.nE)

instance (m : Mesh) : Decidable (roomForLoop m) := by unfold roomForLoop nearLimit; infer_instance

open Classical in
/-- The halfedge `cut i` in terms of the pieces of `Verif.LoopTab`. -/
noncomputable def cutPc (m : Mesh) (pc : ℕ → ℕ → ℕ) (c : ℕ) : ℕ :=
  if sideFirst m c then pc (m.heNext (m.heNext c)) 3 else if sideFirst m (m.heNext c) then pc (m.heNext c) 2 else pc c 2

theorem cutPc_of {m : Mesh} (hv : m.Valid) (ht : m.TriFaces) {pc : ℕ → ℕ → ℕ} {i : ℕ} (hi : m.heLive i) (hx : ¬ m.ext i) (hf : sideFirst m i) :
    cutPc m pc i = pc (m.heNext (m.heNext i)) 3 ∧ cutPc m pc (m.heNext i) = pc (m.heNext i) 2 ∧ cutPc m pc (m.heNext (m.heNext i)) = pc i 2 := by
  have t := ht i hi hx
  have n1 : ¬ sideFirst m (m.heNext i) := fun h => by have := h.2; rw [t] at this; have := hf.1; omega
  have n2 : ¬ sideFirst m (m.heNext (m.heNext i)) := fun h => by have := h.1; rw [t] at this; have := hf.2; omega
  unfold cutPc
  rw [if_pos hf, if_neg n1, if_neg n2, if_neg n2, t, if_pos hf]
  exact ⟨rfl, rfl, rfl⟩

theorem LInv.triFaces {P : Type} {m : Mesh} {pos splitP : ℕ → P} {pc : ℕ → ℕ → ℕ} {s : LoopSt P} (hv : m.Valid) (ht : m.TriFaces) (hl : m.NoLoops)
    (I : LInv m pos splitP m.nEFill pc s) : s.m.TriFaces := by
  intro x lx xx
  obtain ⟨c, t, k, rfl⟩ := (I.live x).1 lx
  rw [I.ex _ _ k] at xx
  obtain ⟨lc, k⟩ := (ok_all hv).1 k
  obtain ⟨i, li, xi, hf, -, mem⟩ := exists_first hv ht hl lc xx
  have C := I.cut hv ht hl li xi hf
  have t4 : t = 0 ∨ t = 1 ∨ t = 2 ∨ t = 3 := by
    rcases k with h | h | ⟨-, h | h⟩
    · exact .inl h
    · exact .inr (.inl h)
    · exact .inr (.inr (.inl h))
    · exact .inr (.inr (.inr h))
  rcases mem with rfl | rfl | rfl <;> rcases t4 with rfl | rfl | rfl | rfl
  · rw [C.i0, C.k3, C.k1]
  · rw [C.i1, C.j0, C.j2]
  · rw [C.i2, C.k0, C.k2]
  · rw [C.i3, C.j3, C.j1]
  · rw [C.j0, C.j2, C.i1]
  · rw [C.j1, C.i3, C.j3]
  · rw [C.j2, C.i1, C.j0]
  · rw [C.j3, C.j1, C.i3]
  · rw [C.k0, C.k2, C.i2]
  · rw [C.k1, C.i0, C.k3]
  · rw [C.k2, C.i2, C.k0]
  · rw [C.k3, C.k1, C.i0]

/-- **C82, connectivity.** On a valid triangle mesh in which no edge joins a vertex with itself and no vertex inside the mesh has just two edges, the
loops of `loopSubdivide` finish without an error.  The result is a valid triangle mesh, namely the given one with every edge cut in two and every
triangle cut into four.  Old vertices get the position computed for them, and so does the middle of each edge. -/
theorem C82_refine {P : Type} (m : Mesh) (hv : m.Valid) (ht : m.TriFaces) (hl : m.NoLoops) (hd : m.NoDegTwo) (hroom : roomForLoop m)
    (pos splitP : ℕ → P) :
    ∃ m' pos' fst snd cut mid, m.loopRefine pos splitP = .ok (m', pos') ∧ m'.Valid ∧ m'.TriFaces ∧ LoopRefined m m' fst snd cut mid ∧
      (∀ v, m.vLive v → pos' v = pos v) ∧ (∀ e, m.heLive (2 * e) → pos' (mid e) = splitP e) := by
  classical
  have rk := subRk_all hv
  have sI := subIn_all hv ht
  rcases loopSplit_ok (pos := pos) (splitP := splitP) hv ht hl with ⟨s, pc, e1, I⟩ | ⟨-, lim⟩
  swap
  · rw [rk] at lim; exact (hroom lim).elim
  obtain ⟨m', e2, F⟩ := I.turn hv ht hl hd
  have hv' := F.shape.valid
  -- one triangle at a time
  have cases : ∀ {c}, m.heLive c → ¬ m.ext c → ∃ i, m.heLive i ∧ ¬ m.ext i ∧ sideFirst m i ∧ (c = i ∨ c = m.heNext i ∨ c = m.heNext (m.heNext i)) :=
    fun {c} hc hx => by
      obtain ⟨i, a, b, d, -, e⟩ := exists_first hv ht hl hc hx; exact ⟨i, a, b, d, e⟩
  have lt : ∀ {i}, m.heLive i → i / 2 < m.nEFill := fun {i} hi => I.ltE hv hi
  -- which piece a cut is
  have cutIs : ∀ {c}, m.heLive c → ¬ m.ext c → ∃ d t, (m.heLive d ∧ ¬ m.ext d ∧ (t = 2 ∨ t = 3)) ∧ cutPc m pc c = pc d t ∧
      GC.twin (cutPc m pc c) = pc d (5 - t) ∧ ((t = 2 ∧ ¬ sideFirst m d ∧ c = d ∧ ¬ sideFirst m (m.heNext d)) ∨ (t = 3 ∧ ¬ sideFirst m d ∧ c = m.heNext d ∧ sideFirst m c) ∨
        (t = 2 ∧ sideFirst m d ∧ m.heNext c = d)) := by
    intro c hc hx
    obtain ⟨i, li, xi, hf, mem⟩ := cases hc hx
    obtain ⟨q1, q2, q3⟩ := cutPc_of (pc := pc) hv ht li xi hf
    have t := ht i li xi
    have l1 := hv.next_live _ li
    have l2 := hv.next_live _ l1
    have x1 : ¬ m.ext (m.heNext i) := by rwa [ext_next' hv li]
    have x2 : ¬ m.ext (m.heNext (m.heNext i)) := by rwa [ext_next' hv l1]
    have n1 : ¬ sideFirst m (m.heNext i) := fun h => by have := h.2; rw [t] at this; have := hf.1; omega
    have n2 : ¬ sideFirst m (m.heNext (m.heNext i)) := fun h => by have := h.1; rw [t] at this; have := hf.2; omega
    rcases mem with rfl | rfl | rfl
    · exact ⟨_, 3, ⟨l2, x2, .inr rfl⟩, q1, by rw [q1]; exact (I.twin2 hv l2 x2).2.1, .inr (.inl ⟨rfl, n2, t.symm, hf⟩)⟩
    · exact ⟨_, 2, ⟨l1, x1, .inl rfl⟩, q2, by rw [q2]; exact (I.twin2 hv l1 x1).1, .inl ⟨rfl, n1, rfl, n2⟩⟩
    · exact ⟨i, 2, ⟨li, xi, .inl rfl⟩, q3, by rw [q3]; exact (I.twin2 hv li xi).1, .inr (.inr ⟨rfl, hf, t⟩)⟩
  have k0 : ∀ {i}, m.heLive i → m.heLive i ∧ ((0 : ℕ) = 0 ∨ (0 : ℕ) = 1 ∨ (¬ m.ext i ∧ ((0 : ℕ) = 2 ∨ (0 : ℕ) = 3))) := fun h => ⟨h, .inl rfl⟩
  have k1 : ∀ {i}, m.heLive i → m.heLive i ∧ ((1 : ℕ) = 0 ∨ (1 : ℕ) = 1 ∨ (¬ m.ext i ∧ ((1 : ℕ) = 2 ∨ (1 : ℕ) = 3))) := fun h => ⟨h, .inr (.inl rfl)⟩
  have k23 : ∀ {i t}, m.heLive i ∧ ¬ m.ext i ∧ (t = 2 ∨ t = 3) → m.heLive i ∧ (t = 0 ∨ t = 1 ∨ (¬ m.ext i ∧ (t = 2 ∨ t = 3))) :=
    fun h => ⟨h.1, .inr (.inr h.2)⟩
  have k23' : ∀ {i t}, m.heLive i ∧ ¬ m.ext i ∧ (t = 2 ∨ t = 3) → m.heLive i ∧ (5 - t = 0 ∨ 5 - t = 1 ∨ (¬ m.ext i ∧ (5 - t = 2 ∨ 5 - t = 3))) :=
    fun h => ⟨h.1, .inr (.inr ⟨h.2.1, by omega⟩)⟩
  have live' : ∀ {x}, s.m.heLive x → m'.heLive x := fun h => (F.shape.live _).2 h
  have live : ∀ x, m'.heLive x ↔ ∃ i, m.heLive i ∧ (x = pc i 0 ∨ x = pc i 1 ∨ (¬ m.ext i ∧ (x = cutPc m pc i ∨ x = GC.twin (cutPc m pc i)))) := by
    intro x
    rw [F.shape.live, I.live]
    constructor
    · rintro ⟨c, t, kk, rfl⟩
      obtain ⟨lc, k⟩ := (ok_all hv).1 kk
      clear kk
      rcases k with rfl | rfl | ⟨xc, k⟩
      · exact ⟨c, lc, .inl rfl⟩
      · exact ⟨c, lc, .inr (.inl rfl)⟩
      · obtain ⟨i, li, xi, hf, mem⟩ := cases lc xc
        obtain ⟨q1, q2, q3⟩ := cutPc_of (pc := pc) hv ht li xi hf
        have l1 := hv.next_live _ li
        have l2 := hv.next_live _ l1
        have x1 : ¬ m.ext (m.heNext i) := by rwa [ext_next' hv li]
        have x2 : ¬ m.ext (m.heNext (m.heNext i)) := by rwa [ext_next' hv l1]
        rcases mem with rfl | rfl | rfl
        · refine ⟨_, l2, .inr (.inr ⟨x2, ?_⟩)⟩
          rw [q3, (I.twin2 hv lc xc).1]
          rcases k with rfl | rfl
          · exact .inl rfl
          · exact .inr rfl
        · refine ⟨_, l1, .inr (.inr ⟨x1, ?_⟩)⟩
          rw [q2, (I.twin2 hv l1 x1).1]
          rcases k with rfl | rfl
          · exact .inl rfl
          · exact .inr rfl
        · refine ⟨i, li, .inr (.inr ⟨xi, ?_⟩)⟩
          rw [q1, (I.twin2 hv l2 x2).2.1]
          rcases k with rfl | rfl
          · exact .inr rfl
          · exact .inl rfl
    · rintro ⟨i, hi, rfl | rfl | ⟨hx, h⟩⟩
      · exact ⟨i, 0, (ok_all hv).2 (k0 hi), rfl⟩
      · exact ⟨i, 1, (ok_all hv).2 (k1 hi), rfl⟩
      · obtain ⟨d, t, k, a, b, -⟩ := cutIs hi hx
        rcases h with rfl | rfl
        · exact ⟨d, t, (ok_all hv).2 (k23 k), a⟩
        · exact ⟨d, 5 - t, (ok_all hv).2 (k23' k), b⟩
  have vfst : ∀ i, m.heLive i → m'.heVertex (pc i 0) = m.heVertex i := fun i hi => by
    rw [I.turned_vertex hv F (k0 hi) (.inl rfl), I.v0 i hi]
  have vsnd : ∀ i, m.heLive i → m'.heVertex (pc i 1) = midOf m (i / 2) := fun i hi => by
    rw [I.turned_vertex hv F (k1 hi) (.inr (.inl rfl)), I.v1 i hi (lt hi)]; rfl
  have nsnd : ∀ i, m.heLive i → m'.heNext (pc i 1) = pc (m.heNext i) 0 := by
    intro i hi
    by_cases hx : m.ext i
    · rw [I.turned_ext hv ht hl F hi hx (.inr rfl), (I.x1 i hi hx (lt hi)).2]
    · obtain ⟨c, lc, xc, hf, mem⟩ := cases hi hx
      have T := I.turned hv ht hl F lc xc hf
      have t := ht c lc xc
      rcases mem with rfl | rfl | rfl
      · exact T.i1
      · exact T.j1
      · rw [t]; exact T.k1
  have nfst : ∀ i, m.heLive i → ¬ m.ext i → m'.heNext (pc i 0) = cutPc m pc i := by
    intro i hi hx
    obtain ⟨c, lc, xc, hf, mem⟩ := cases hi hx
    obtain ⟨q1, q2, q3⟩ := cutPc_of (pc := pc) hv ht lc xc hf
    have T := I.turned hv ht hl F lc xc hf
    rcases mem with rfl | rfl | rfl
    · rw [q1]; exact T.i0
    · rw [q2]; exact T.j0
    · rw [q3]; exact T.k0
  have ncut : ∀ i, m.heLive i → ¬ m.ext i → m'.heNext (cutPc m pc (m.heNext i)) = pc i 1 := by
    intro i hi hx
    obtain ⟨c, lc, xc, hf, mem⟩ := cases hi hx
    obtain ⟨q1, q2, q3⟩ := cutPc_of (pc := pc) hv ht lc xc hf
    have T := I.turned hv ht hl F lc xc hf
    have t := ht c lc xc
    rcases mem with rfl | rfl | rfl
    · rw [q2]; exact T.j2
    · rw [q3]; exact T.i2
    · rw [t, q1]; exact T.k3
  have nmid : ∀ i, m.heLive i → ¬ m.ext i → m'.heNext (GC.twin (cutPc m pc i)) = GC.twin (cutPc m pc (m.heNext i)) := by
    intro i hi hx
    obtain ⟨c, lc, xc, hf, mem⟩ := cases hi hx
    obtain ⟨q1, q2, q3⟩ := cutPc_of (pc := pc) hv ht lc xc hf
    have T := I.turned hv ht hl F lc xc hf
    have t := ht c lc xc
    have l1 := hv.next_live _ lc
    have l2 := hv.next_live _ l1
    have x1 : ¬ m.ext (m.heNext c) := by rwa [ext_next' hv lc]
    have x2 : ¬ m.ext (m.heNext (m.heNext c)) := by rwa [ext_next' hv l1]
    have w1 := I.twin2 hv lc xc
    have w2 := I.twin2 hv l1 x1
    have w3 := I.twin2 hv l2 x2
    rcases mem with rfl | rfl | rfl
    · rw [q1, q2, w3.2.1, w2.1]; exact T.k2
    · rw [q2, q3, w2.1, w1.1]; exact T.j3
    · rw [q3, t, q1, w1.1, w3.2.1]; exact T.i3
  have lcut : ∀ i, m.heLive i → ¬ m.ext i → m'.heLive (cutPc m pc i) := fun i hi hx => (live _).2 ⟨i, hi, .inr (.inr ⟨hx, .inl rfl⟩)⟩
  have lfst : ∀ i, m.heLive i → m'.heLive (pc i 0) := fun i hi => (live _).2 ⟨i, hi, .inl rfl⟩
  have lsnd : ∀ i, m.heLive i → m'.heLive (pc i 1) := fun i hi => (live _).2 ⟨i, hi, .inr (.inl rfl)⟩
  have vcut : ∀ i, m.heLive i → ¬ m.ext i → m'.heVertex (cutPc m pc i) = midOf m (i / 2) := by
    intro i hi hx
    rw [← nfst i hi hx, hv'.vertex_next (lfst i hi), (I.twin0 hv hi).1, vsnd _ (hv.twin_live _ hi)]
    congr 1
    rcases Nat.even_or_odd' i with ⟨k, rfl | rfl⟩
    · rw [twin_two_mul]; omega
    · rw [twin_two_mul_add]; omega
  have vmid : ∀ i, m.heLive i → ¬ m.ext i → m'.heVertex (GC.twin (cutPc m pc (m.heNext i))) = midOf m (i / 2) := by
    intro i hi hx
    have x1 : ¬ m.ext (m.heNext i) := by rwa [ext_next' hv hi]
    rw [← hv'.vertex_next (lcut _ (hv.next_live _ hi) x1), ncut i hi hx, vsnd i hi]
  have ex : ∀ {i t}, m.heLive i ∧ (t = 0 ∨ t = 1 ∨ (¬ m.ext i ∧ (t = 2 ∨ t = 3))) → (m'.ext (pc i t) ↔ m.ext i) := fun {i t} k => by
    rw [F.shape.ext _ (I.pcLive hv k), I.ex _ _ ((ok_all hv).2 k)]
  refine ⟨m', s.pos, fun i => pc i 0, fun i => pc i 1, cutPc m pc, midOf m, ?_, hv', F.shape.tri (I.triFaces hv ht hl), ?_, ?_, ?_⟩
  · unfold loopRefine
    simp only [e1, e2, bind, Except.bind]
  · exact {
      live := live
      fst_inj := fun i j hi hj h => (I.pcInj hv (k0 hi) (k0 hj) h).1
      snd_inj := fun i j hi hj h => (I.pcInj hv (k1 hi) (k1 hj) h).1
      cut_inj := fun i j hi hx hj hx' h => by
        have e := (nfst i hi hx).trans (h.trans (nfst j hj hx').symm)
        exact (I.pcInj hv (k0 hi) (k0 hj) (hv'.next_inj (lfst i hi) (lfst j hj) e)).1
      fst_snd := fun i j hi hj h => by have := (I.pcInj hv (k0 hi) (k1 hj) h).2; omega
      cut_new := fun i j hi hj hx => by
        obtain ⟨d, t, k, a, b, -⟩ := cutIs hj hx
        rw [b, a]
        have := k.2.2
        refine ⟨fun h => ?_, fun h => ?_, fun h => ?_, fun h => ?_⟩
        · have := (I.pcInj hv (k0 hi) (k23 k) h).2; omega
        · have := (I.pcInj hv (k0 hi) (k23' k) h).2; omega
        · have := (I.pcInj hv (k1 hi) (k23 k) h).2; omega
        · have := (I.pcInj hv (k1 hi) (k23' k) h).2; omega
      cut_twin := fun i j hi hx hj hx' h => by
        obtain ⟨d, t, k, a, b, c⟩ := cutIs hi hx
        obtain ⟨d', t', k', a', b', c'⟩ := cutIs hj hx'
        rw [a, b'] at h
        obtain ⟨rfl, rfl⟩ := I.pcInj hv (k23 k) (k23' k') h
        rcases c with ⟨u, v, w, z⟩ | ⟨u, v, w, z⟩ | ⟨u, v, w⟩ <;> rcases c' with ⟨u', v', w', z'⟩ | ⟨u', v', w', z'⟩ | ⟨u', v', w'⟩
        · omega
        · rw [w'] at z'; exact z z'
        · omega
        · rw [w] at z; exact z' z
        · omega
        · exact v v'
        · omega
        · exact v' v
        · omega
      twin_fst := fun i hi => (I.twin0 hv hi).1
      next_snd := nsnd
      next_fst := nfst
      next_cut := ncut
      next_mid := nmid
      next_ext := fun i hi hx => by
        rw [I.turned_ext hv ht hl F hi hx (.inl rfl), (I.x1 i hi hx (lt hi)).1]
      vertex_fst := vfst
      vertex_snd := vsnd
      vertex_cut := vcut
      vertex_mid := vmid
      ext_fst := fun i hi => ex (k0 hi)
      ext_snd := fun i hi => ex (k1 hi)
      ext_cut := fun i hi hx => by
        obtain ⟨d, t, k, a, b, -⟩ := cutIs hi hx
        rw [b, a, ex (k23 k), ex (k23' k)]
        exact ⟨k.2.1, k.2.1⟩
      vLive := fun v => by
        constructor
        · intro h
          obtain ⟨a, b⟩ := hv'.v_he v h
          obtain ⟨i, hi, e | e | ⟨c, e | e⟩⟩ := (live _).1 a
          · left; rw [← b, e, vfst i hi]; exact hv.vertex_live i hi
          · right; exact ⟨i / 2, live_even hv hi, by rw [← b, e, vsnd i hi]⟩
          · right; exact ⟨i / 2, live_even hv hi, by rw [← b, e, vcut i hi c]⟩
          · obtain ⟨q, -, lq, rfl⟩ := hv.prevOrbitFace_ok hi
            have c' : ¬ m.ext q := by rwa [← ext_next' hv lq]
            right; exact ⟨q / 2, live_even hv lq, by rw [← b, e, vmid q lq c']⟩
        · rintro (h | ⟨e, he, rfl⟩)
          · obtain ⟨a, b⟩ := hv.v_he v h
            rw [← b, ← vfst _ a]; exact hv'.vertex_live _ (lfst _ a)
          · have := vsnd _ he
            rw [show 2 * e / 2 = e by omega] at this
            rw [← this]; exact hv'.vertex_live _ (lsnd _ he)
      mid_inj := fun e e' he he' h => Nat.count_injective (p := fun e => m.heLive (2 * e)) he he' (by
        unfold midOf subRk at h; omega)
      mid_new := fun e _ => by unfold midOf; omega
      c_v := by rw [F.shape.c_v, I.c_v, rk]
      c_e := by rw [F.shape.c_e, I.c_e, rk, sI]; ring
      c_f := by rw [F.shape.c_f, I.c_f, sI]; ring
      c_bl := by rw [F.shape.c_bl, I.c_bl] }
  · intro v hvl
    exact I.pos_o v hvl.1
  · intro e he
    exact I.pos_n e (by have := lt he; omega) he

/-- **C82, meshes with vertices of degree two.** Without the condition on the vertices inside the mesh, `flip` may refuse.  The result still is a
valid triangle mesh with the old vertices and one new vertex per edge, four times as many faces and the same boundary, and all positions are right. -/
theorem C82_counts {P : Type} (m : Mesh) (hv : m.Valid) (ht : m.TriFaces) (hl : m.NoLoops) (hroom : roomForLoop m) (pos splitP : ℕ → P) :
    ∃ (m' : Mesh) (pos' : ℕ → P) (mid : ℕ → ℕ), m.loopRefine pos splitP = .ok (m', pos') ∧ m'.Valid ∧ m'.TriFaces ∧
      m'.nV = m.nV + m.nE ∧ m'.nE = 2 * m.nE + 3 * m.nF ∧ m'.nF = 4 * m.nF ∧ m'.nBL = m.nBL ∧
      (∀ v, m'.vLive v ↔ m.vLive v ∨ ∃ e, m.heLive (2 * e) ∧ v = mid e) ∧ (∀ e, m.heLive (2 * e) → m.nVFill ≤ mid e) ∧
      (∀ e e', m.heLive (2 * e) → m.heLive (2 * e') → mid e = mid e' → e = e') ∧
      (∀ v, m.vLive v → pos' v = pos v) ∧ (∀ e, m.heLive (2 * e) → pos' (mid e) = splitP e) := by
  have rk := subRk_all hv
  have sI := subIn_all hv ht
  rcases loopSplit_ok (pos := pos) (splitP := splitP) hv ht hl with ⟨s, pc, e1, I⟩ | ⟨-, lim⟩
  swap
  · rw [rk] at lim; exact (hroom lim).elim
  obtain ⟨m', e2, S⟩ := loopFlips_shape I.valid (L := s.toFlip) (fun e he => by
    obtain ⟨i, a, b, -, -, rfl⟩ := (I.flips e).1 he
    rw [(I.twin2 hv a b).2.2]; exact I.pcLive hv ⟨a, .inr (.inr ⟨b, .inl rfl⟩)⟩)
  have vsnd : ∀ i, m.heLive i → s.m.heVertex (pc i 1) = midOf m (i / 2) := fun i hi => I.v1 i hi (I.ltE hv hi)
  refine ⟨m', s.pos, midOf m, ?_, S.valid, S.tri (I.triFaces hv ht hl), by rw [S.c_v, I.c_v, rk], by rw [S.c_e, I.c_e, rk, sI]; ring,
    by rw [S.c_f, I.c_f, sI]; ring, by rw [S.c_bl, I.c_bl], fun v => ?_, fun e _ => by unfold midOf; omega, fun e e' he he' h => ?_, ?_, ?_⟩
  · unfold loopRefine
    simp only [e1, e2, bind, Except.bind]
  · rw [S.vl]
    constructor
    · intro h
      by_cases c : v < m.nVFill
      · left
        obtain ⟨a, b⟩ := I.valid.v_he v h
        obtain ⟨i, t, k, e⟩ := (I.live _).1 a
        have L := I.valid.twin_live _ a
        obtain ⟨li, k⟩ := (ok_all hv).1 k
        rw [e] at b
        rcases k with rfl | rfl | ⟨xi, rfl | rfl⟩
        · rw [← b, I.v0 i li]; exact hv.vertex_live i li
        · rw [vsnd i li] at b; unfold midOf at b; omega
        · rw [I.v2 i li xi (I.ltE hv li)] at b; omega
        · have L2 := I.pcLive hv (i := i) (t := 2) ⟨li, .inr (.inr ⟨xi, .inl rfl⟩)⟩
          have q := I.valid.vertex_next L2
          rw [(I.twin2 hv li xi).1, b] at q
          obtain ⟨j, lj, xj, hf, -, mem⟩ := exists_first hv ht hl li xi
          have C := I.cut hv ht hl lj xj hf
          have l1 := hv.next_live _ lj
          have l2 := hv.next_live _ l1
          rcases mem with rfl | rfl | rfl
          · rw [C.i2, I.v0 _ l2] at q; rw [← q]; exact hv.vertex_live _ l2
          · rw [C.j2, vsnd _ lj] at q; unfold midOf at q; omega
          · rw [C.k2, I.v2 _ lj xj (I.ltE hv lj)] at q; omega
      · right
        have lt := h.1
        rw [I.vFill] at lt
        obtain ⟨e, -, he, q⟩ := subRk_surj (m := m) (n := m.nEFill) (r := v - m.nVFill) (by omega)
        exact ⟨e, he, by unfold midOf; omega⟩
    · rintro (h | ⟨e, he, rfl⟩)
      · obtain ⟨a, b⟩ := hv.v_he v h
        rw [← b, ← I.v0 _ a]; exact I.valid.vertex_live _ (I.pcLive hv ⟨a, .inl rfl⟩)
      · have := vsnd _ he
        rw [show 2 * e / 2 = e by omega] at this
        rw [← this]; exact I.valid.vertex_live _ (I.pcLive hv ⟨he, .inr (.inl rfl)⟩)
  · exact Nat.count_injective (p := fun e => m.heLive (2 * e)) he he' (by unfold midOf subRk at h; omega)
  · intro v hvl
    exact I.pos_o v hvl.1
  · intro e he
    exact I.pos_n e (by have := I.ltE hv he; omega) he

/-! ### Positions -/

/-- The rule for an old vertex `v` of degree `n` with neighbours of mean `Q`. -/
noncomputable def loopVertexRule (n : ℕ) (p Q : V3) : V3 :=
  if n = 3 then (p.smul (7 / 16)).add (Q.smul (9 / 16)) else (p.smul (5 / 8)).add (Q.smul (3 / 8))

/-- The rule for a new vertex on an edge with ends `a`, `b` and opposite corners `c`, `d`. -/
noncomputable def loopEdgeRule (a b c d : V3) : V3 := ((a.add b).smul (3 / 8)).add ((c.add d).smul (1 / 8))

theorem foldl_add_smul {α : Type} (g : α → V3) (u : ℝ) (l : List α) : ∀ p : V3,
    l.foldl (fun (p : V3) a => p.add ((g a).smul u)) p =
      ⟨p.x + (l.map fun a => (g a).x).sum * u, p.y + (l.map fun a => (g a).y).sum * u, p.z + (l.map fun a => (g a).z).sum * u⟩ := by
  induction l with
  | nil => intro p; simp
  | cons a l ih =>
    intro p
    rw [List.foldl_cons, ih]
    simp only [V3.add, V3.smul, List.map_cons, List.sum_cons]
    ext <;> simp only <;> ring

theorem vertexPointsLoop_ok {m : Mesh} (hv : m.Valid) (pos : ℕ → V3) :
    ∃ F, m.vertexPointsLoop pos = .ok F ∧ ∀ v, m.vLive v →
      F v = loopVertexRule (spokesOf m v).card (pos v) (meanOf (spokesOf m v) fun i => pos (m.heVertex (GC.twin i))) := by
  classical
  obtain ⟨⟨vs, h1, h2, -⟩, -⟩ := C16_ranges m hv
  refine ⟨assign (fun _ => ⟨0, 0, 0⟩) (fun v => loopVertexRule (spokesOf m v).card (pos v)
    (meanOf (spokesOf m v) fun i => pos (m.heVertex (GC.twin i)))) vs, ?_, fun v h => by rw [assign_apply, if_pos ((h2.2 v).2 h)]⟩
  unfold vertexPointsLoop
  simp only [h1, bind, Except.bind]
  refine assignM_ok (fun v hvl => ?_) _
  obtain ⟨l, -, nd, hm, h0, -, hdeg, -, hvs, -⟩ := C49_vertex_outgoing m hv v ((h2.2 v).1 hvl)
  have hL : l.toFinset = spokesOf m v := by
    ext i; rw [List.mem_toFinset, hm]; unfold spokesOf
    simp only [Finset.mem_filter, Finset.mem_range]
    exact ⟨fun h => ⟨h.1.1, h⟩, fun h => h.2⟩
  have cd : (spokesOf m v).card = l.length := by rw [← hL, List.toFinset_card_of_nodup nd]
  have e : ∀ h : ℕ → ℝ, (l.map h).sum = ∑ i ∈ spokesOf m v, h i := fun h => by rw [← hL, List.sum_toFinset h nd]
  have ne : (l.length : ℝ) ≠ 0 := by
    intro h
    have : l.length = 0 := by exact_mod_cast h
    rw [List.length_eq_zero_iff] at this
    subst this; simp at h0
  simp only [hdeg, hvs]
  rw [List.foldl_map, foldl_add_smul]
  unfold loopVertexRule meanOf
  rw [e, e, e, cd]
  congr 1
  by_cases c : l.length = 3
  · rw [if_pos c, if_pos c, c]
    simp only [V3.add, V3.smul]
    push_cast
    ext <;> simp only <;> ring
  · rw [if_neg c, if_neg c]
    simp only [V3.add, V3.smul]
    ext <;> simp only <;> field_simp <;> ring

/-- **C82, positions.** On the meshes of `C82_refine`, `loopSubdivide` returns the refined mesh with these positions.  A new vertex on an edge inside the
mesh has 3/8 of each end and 1/8 of each opposite corner, one on the boundary is half way.  An old vertex of degree three keeps 7/16 of its position, any other
5/8, and the rest is the mean of its neighbours.  Missing: the rule for old vertices on the boundary should not involve the inside of the mesh
(`C82_boundary_rule`). -/
theorem C82_loop_partial (m : Mesh) (hv : m.Valid) (ht : m.TriFaces) (hl : m.NoLoops) (hd : m.NoDegTwo) (hroom : roomForLoop m) (pos : ℕ → V3) :
    ∃ m' pos' fst snd cut mid, m.loopSubdivide pos = .ok (m', pos') ∧ m'.Valid ∧ m'.TriFaces ∧ LoopRefined m m' fst snd cut mid ∧
      (∀ v, m.vLive v → pos' v = loopVertexRule (spokesOf m v).card (pos v) (meanOf (spokesOf m v) fun i => pos (m.heVertex (GC.twin i)))) ∧
      (∀ i, m.heLive i → ¬ m.ext i → ¬ m.ext (GC.twin i) → pos' (mid (i / 2)) = loopEdgeRule (pos (m.heVertex i)) (pos (m.heVertex (GC.twin i)))
        (pos (m.heVertex (m.heNext (m.heNext i)))) (pos (m.heVertex (m.heNext (m.heNext (GC.twin i)))))) ∧
      (∀ i, m.heLive i → m.ext i → pos' (mid (i / 2)) = ((pos (m.heVertex i)).add (pos (m.heVertex (GC.twin i)))).smul (1 / 2)) := by
  obtain ⟨F, hF, hF'⟩ := vertexPointsLoop_ok hv pos
  obtain ⟨-, -, -, -, ⟨es, h1, h2, -⟩, ⟨fs, h3, h4, -⟩, -⟩ := C16_ranges m hv
  have tri : m.isTriangular = .ok true := by
    unfold isTriangular
    rw [h3]
    simp only [Except.map, Except.ok.injEq, Bool.not_eq_true', List.any_eq_false, Bool.not_eq_true, Bool.not_eq_false', decide_eq_true_eq]
    intro f hf
    obtain ⟨a, b⟩ := (h4.2 f).1 hf
    obtain ⟨c, d⟩ := hv.f_he f a
    have q : m.fIsTriangle f := (ht _ c (by unfold Mesh.ext; omega)).symm
    simp [q]
  generalize hE : assign (fun _ => (⟨0, 0, 0⟩ : V3)) (fun e =>
    let h := eHalfedge e
    if m.eIsBoundary e then ((pos (m.heVertex h)).add (pos (m.tip h))).sdiv 2
    else (((pos (m.heVertex h)).add (pos (m.tip h))).smul (3 / 8)).add
      (((pos (m.heVertex (m.heNext (m.heNext h)))).add (pos (m.heVertex (m.heNext (m.heNext (GC.twin h)))))).smul (1 / 8))) es = E
  have hE1 : m.edgePointsLoop pos = .ok E := by
    unfold edgePointsLoop
    rw [h1, ← hE]; rfl
  obtain ⟨m', pos', fst, snd, cut, mid, e, val, tf, R, p1, p2⟩ := C82_refine m hv ht hl hd hroom F E
  have bd : ∀ {k}, m.eIsBoundary k ↔ m.ext (2 * k + 1) := fun {k} => by
    have := (not_bdy_iff (m := m) (e := k)).not
    rw [not_not, not_not] at this
    rw [this, eHalfedge, twin_two_mul]
  refine ⟨m', pos', fst, snd, cut, mid, ?_, val, tf, R, fun v hvl => by rw [p1 v hvl, hF' v hvl], fun i hi hx hx' => ?_, fun i hi hx => ?_⟩
  · unfold loopSubdivide
    simp only [tri, hF, hE1, bind, Except.bind]
    exact e
  · have le := live_even hv hi
    rw [p2 _ le, ← hE, assign_apply, if_pos ((h2.2 _).2 le)]
    unfold tip eHalfedge loopEdgeRule
    simp only
    rw [hv.vertex_next le]
    rcases Nat.even_or_odd' i with ⟨k, rfl | rfl⟩
    · rw [show 2 * k / 2 = k by omega, if_neg (by rw [bd]; rwa [twin_two_mul] at hx')]
    · rw [show (2 * k + 1) / 2 = k by omega, if_neg (by rwa [bd]), twin_two_mul, twin_two_mul_add]
      unfold V3.add V3.smul
      ext <;> simp only <;> ring
  · have le := live_even hv hi
    rw [p2 _ le, ← hE, assign_apply, if_pos ((h2.2 _).2 le)]
    unfold tip eHalfedge
    simp only
    rw [hv.vertex_next le]
    rcases Nat.even_or_odd' i with ⟨k, rfl | rfl⟩
    · exact (hv.edge_int k hi hx).elim
    · rw [show (2 * k + 1) / 2 = k by omega, if_pos (by rwa [bd]), twin_two_mul, twin_two_mul_add]
      unfold V3.add V3.smul V3.sdiv
      ext <;> simp only <;> ring

/-- **C82, other meshes.** A mesh with a face that is not a triangle is refused. -/
theorem C82_not_triangular (m : Mesh) (hv : m.Valid) (h : ∃ f, m.fLive f ∧ f < m.nFFill ∧ m.fDegree f ≠ .ok 3) (pos : ℕ → V3) :
    m.loopSubdivide pos = .error .throw := by
  obtain ⟨⟨b, e, hb⟩, -⟩ := C62_flags m hv
  have : b = false := by
    cases b with
    | false => rfl
    | true => obtain ⟨f, a, c, d⟩ := h; exact (d (hb.1 rfl f a c)).elim
  subst this
  unfold loopSubdivide
  rw [e]; rfl

/-! ### Examples and failures -/

/-- Decidable forms of the hypotheses. -/
def noLoopsB (m : Mesh) : Bool := (List.range m.nHeFill).all fun i => decide (m.heVertex i ≠ m.heVertex (GC.twin i))
def triFacesB (m : Mesh) : Bool := (List.range m.nHeFill).all fun i => decide (m.ext i ∨ m.heNext (m.heNext (m.heNext i)) = i)
def noDegTwoB (m : Mesh) : Bool :=
  (List.range m.nHeFill).all fun i => decide (m.ext i ∨ m.ext (GC.twin i) ∨ m.heNext (GC.twin (m.heNext i)) ≠ GC.twin i)

theorem noLoops_of {m : Mesh} (h : noLoopsB m = true) : m.NoLoops := fun i hi => by
  unfold noLoopsB at h; rw [List.all_eq_true] at h; exact of_decide_eq_true (h i (List.mem_range.2 hi.1))
theorem triFaces_of {m : Mesh} (h : triFacesB m = true) : m.TriFaces := fun i hi hx => by
  unfold triFacesB at h; rw [List.all_eq_true] at h; exact (of_decide_eq_true (h i (List.mem_range.2 hi.1))).resolve_left hx
theorem noDegTwo_of {m : Mesh} (h : noDegTwoB m = true) : m.NoDegTwo := fun i hi hx hx' => by
  unfold noDegTwoB at h; rw [List.all_eq_true] at h
  exact ((of_decide_eq_true (h i (List.mem_range.2 hi.1))).resolve_left hx).resolve_left hx'

/-- A closed mesh and one with boundary. -/
theorem tetra_loop : tetra.Valid ∧ tetra.TriFaces ∧ tetra.NoLoops ∧ tetra.NoDegTwo ∧ roomForLoop tetra :=
  ⟨tetra_valid, triFaces_of (by decide +kernel), noLoops_of (by decide +kernel), noDegTwo_of (by decide +kernel), by decide +kernel⟩

theorem square_loop : square.Valid ∧ square.TriFaces ∧ square.NoLoops ∧ square.NoDegTwo ∧ roomForLoop square :=
  ⟨square_valid, triFaces_of (by decide +kernel), noLoops_of (by decide +kernel), noDegTwo_of (by decide +kernel), by decide +kernel⟩

example : (tetra.loopRefine (P := ℕ) id id).toOption.map (fun s => (s.1.nV, s.1.nE, s.1.nF)) = some (10, 24, 16) ∧
    (square.loopRefine (P := ℕ) id id).toOption.map (fun s => (s.1.nV, s.1.nE, s.1.nF, s.1.nBL)) = some (9, 16, 8, 1) := by
  constructor <;> decide +kernel

/-- `C82_not_triangular` speaks about the quadrilateral. -/
example : quad.Valid ∧ quad.fLive 0 ∧ 0 < quad.nFFill ∧ quad.fDegree 0 ≠ .ok 3 := ⟨quad_valid, by decide +kernel, by decide +kernel, by decide +kernel⟩

/-- **C82 fails for vertices of degree two inside the mesh**: for two triangles glued along their sides `flip` refuses the second edge, since the first
flip has already joined the two vertices, and the result is not the refined mesh. -/
theorem C82_pillow : pillow.Valid ∧ pillow.TriFaces ∧ pillow.NoLoops ∧ roomForLoop pillow ∧
    ¬ ∃ m' pos' fst snd cut mid, pillow.loopRefine (P := Unit) (fun _ => ()) (fun _ => ()) = .ok (m', pos') ∧ LoopRefined pillow m' fst snd cut mid := by
  refine ⟨pillow_valid, triFaces_of (by decide +kernel), noLoops_of (by decide +kernel), by decide +kernel, ?_⟩
  rintro ⟨m', pos', fst, snd, cut, mid, e, R⟩
  have c : (pillow.loopRefine (P := Unit) (fun _ => ()) (fun _ => ())).toOption.map (fun s => decide (s.1.heLive 3 ∧ s.1.heLive 9 ∧ s.1.heLive 18 ∧
      s.1.heVertex 3 = 2 ∧ s.1.heVertex 9 = 2 ∧ s.1.heVertex 18 = 2)) = some true := by decide +kernel
  rw [e] at c
  simp only [Except.toOption, Option.map_some, Option.some.injEq, decide_eq_true_eq] at c
  obtain ⟨l1, l2, l3, v1, v2, v3⟩ := c
  have nv : pillow.nVFill = 3 := rfl
  -- a halfedge at an old vertex is the first half of one there
  have key : ∀ x, m'.heLive x → m'.heVertex x = 2 → ∃ i, (i = 3 ∨ i = 4) ∧ x = fst i := by
    intro x lx vx
    obtain ⟨i, hi, h | h | ⟨hx, h | h⟩⟩ := (R.live x).1 lx
    · refine ⟨i, ?_, h⟩
      rw [h, R.vertex_fst i hi] at vx
      have : i < 6 := hi.1
      interval_cases i <;> revert vx <;> decide +kernel
    · rw [h, R.vertex_snd i hi] at vx; have := R.mid_new _ (live_even pillow_valid hi); omega
    · rw [h, R.vertex_cut i hi hx] at vx; have := R.mid_new _ (live_even pillow_valid hi); omega
    · obtain ⟨q, -, lq, rfl⟩ := pillow_valid.prevOrbitFace_ok hi
      rw [h, R.vertex_mid q lq (by rwa [← ext_next' pillow_valid lq])] at vx
      have := R.mid_new _ (live_even pillow_valid lq); omega
  obtain ⟨a, ha, ea⟩ := key 3 l1 v1
  obtain ⟨b, hb, eb⟩ := key 9 l2 v2
  obtain ⟨d, hd, ed⟩ := key 18 l3 v3
  rcases ha with rfl | rfl <;> rcases hb with rfl | rfl <;> rcases hd with rfl | rfl <;> omega

/-- Positions on the square: everything at the origin except the vertex 2. -/
noncomputable def squarePos (v : ℕ) : V3 := if v = 2 then ⟨1, 0, 0⟩ else ⟨0, 0, 0⟩

/-- **C82 fails on the boundary**: Loop's rule takes a vertex of the boundary to 3/4 of its position and 1/8 of each of its neighbours along the boundary; the
code moves a boundary vertex towards a vertex that is not its neighbour there. -/
theorem C82_boundary_rule :
    (∀ m' pos', square.loopSubdivide squarePos = .ok (m', pos') → pos' 0 = ⟨3 / 16, 0, 0⟩) ∧
    (∃ r, square.loopSubdivide squarePos = .ok r) ∧
    -- the neighbours of the vertex 0 along the boundary are 1 and 3, which are at the origin like the vertex 0 itself
    (square.heLive 9 ∧ square.ext 9 ∧ square.heVertex 9 = 0 ∧ square.heVertex (GC.twin 9) = 3 ∧
      square.heLive 1 ∧ square.ext 1 ∧ square.heVertex 1 = 1 ∧ square.heVertex (GC.twin 1) = 0) ∧
    squarePos 0 = ⟨0, 0, 0⟩ ∧ squarePos 1 = ⟨0, 0, 0⟩ ∧ squarePos 3 = ⟨0, 0, 0⟩ := by
  obtain ⟨h1, h2, h3, h4, h5⟩ := square_loop
  obtain ⟨m', pos', fst, snd, cut, mid, e, -, -, -, p, -⟩ := C82_loop_partial square h1 h2 h3 h4 h5 squarePos
  refine ⟨fun m2 pos2 e2 => ?_, ⟨_, e⟩, by decide +kernel, by simp [squarePos], by simp [squarePos], by simp [squarePos]⟩
  rw [e] at e2
  simp only [Except.ok.injEq, Prod.mk.injEq] at e2
  rw [← e2.2, p 0 (by decide +kernel)]
  have sp : spokesOf square 0 = {0, 5, 9} := by decide +kernel
  have w0 : square.heVertex (GC.twin 0) = 1 := by decide +kernel
  have w5 : square.heVertex (GC.twin 5) = 2 := by decide +kernel
  have w9 : square.heVertex (GC.twin 9) = 3 := by decide +kernel
  rw [sp]
  have cd : ({0, 5, 9} : Finset ℕ).card = 3 := by decide
  unfold loopVertexRule meanOf
  rw [cd, if_pos rfl]
  simp only [Finset.sum_insert (show (0 : ℕ) ∉ ({5, 9} : Finset ℕ) by decide), Finset.sum_insert (show (5 : ℕ) ∉ ({9} : Finset ℕ) by decide),
    Finset.sum_singleton, w0, w5, w9]
  norm_num [squarePos, V3.add, V3.smul]

end GC
