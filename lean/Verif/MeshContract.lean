import Verif.MeshRemoveVertex

/-! # Contraction of an edge (helper lemmas for collapseEdgeTriangular) -/

namespace GC

/-- `f` is the first-return map of `g` to `s`: the orbits in `s` are the same. -/
theorem orb_first {f g : ℕ → ℕ} (s : ℕ → Prop) (hs : ∀ x, s x → s (f x))
    (h : ∀ x, s x → ∃ k, g^[k + 1] x = f x ∧ ∀ j < k, ¬ s (g^[j + 1] x)) {x y : ℕ} (hx : s x) (hy : s y) :
    Orb g x y ↔ Orb f x y := by
  constructor
  · rintro ⟨n, hn⟩
    induction n using Nat.strong_induction_on generalizing x with
    | _ n ih =>
      obtain ⟨k, h1, h2⟩ := h x hx
      by_cases c : k + 1 ≤ n
      · have e : g^[n - (k + 1)] (f x) = y := by
          rw [← h1, ← Function.iterate_add_apply, show n - (k + 1) + (k + 1) = n by omega]; exact hn
        exact Orb.head (ih _ (by omega) (hs x hx) e)
      · cases n with
        | zero => exact ⟨0, hn⟩
        | succ n => exact absurd (hn ▸ hy) (h2 n (by omega))
  · intro o
    refine (o.mem (fun z => s z ∧ Orb g x z) ⟨hx, Orb.refl _ _⟩ ?_).2
    rintro z ⟨hz, oz⟩
    obtain ⟨k, h1, -⟩ := h z hz
    exact ⟨hs z hz, oz.trans ⟨k + 1, h1⟩⟩

namespace Mesh

/-- `m'` is `m` with the edge of `A` contracted: `B` is the twin of `A`, the tail of `A` is merged into the tail of `B`.
The stored halfedges are free. -/
structure ConSpec (m m' : Mesh) (A B : ℕ) : Prop where
  lA : m.heLive A
  hB : B = twin A
  vne : m.heVertex A ≠ m.heVertex B
  iA : ¬ m.ext A
  nAB : m.heNext A ≠ B
  next_A : m'.heNext A = INV
  next_B : m'.heNext B = INV
  next_o : ∀ i, m.heLive i → i ≠ A → i ≠ B → m'.heNext i =
    if m.heNext i = A then m.heNext A
    else if m.heNext i = B then (if m.heNext B = A then m.heNext A else m.heNext B) else m.heNext i
  next_dead : ∀ i, ¬ m.heLive i → m'.heNext i = m.heNext i
  v_o : ∀ i, m.heLive i → i ≠ A → i ≠ B → m'.heVertex i = if m.heVertex i = m.heVertex A then m.heVertex B else m.heVertex i
  f_o : ∀ i, m.heLive i → i ≠ A → i ≠ B → m'.heFace i = m.heFace i
  deg : ∀ i, m'.heLive i → m'.heNext i ≠ i
  bdy : ∀ i j, m.heLive i → m.heLive j → i ≠ B → j ≠ B → m.ext i → m.ext j → m.heVertex i = m.heVertex A →
    m.heVertex j ≠ m.heVertex B
  vh_A : m'.vHalfedge (m.heVertex A) = INV
  vh_l : ∀ v, m.vLive v → v ≠ m.heVertex A → m'.heLive (m'.vHalfedge v) ∧ m'.heVertex (m'.vHalfedge v) = v
  vh_d : ∀ v, ¬ m.vLive v → m'.vHalfedge v = m.vHalfedge v
  vh_b : ∀ i, m'.heLive i → m'.ext i → m'.ext (twin (m'.vHalfedge (m'.heVertex i)))
  fh_l : ∀ f, m.fLive f → m'.heLive (m'.fHalfedge f) ∧ m'.heFace (m'.fHalfedge f) = f
  fh_d : ∀ f, ¬ m.fLive f → m'.fHalfedge f = m.fHalfedge f
  c_heFill : m'.nHeFill = m.nHeFill
  c_heCap : m'.nHeCap = m.nHeCap
  c_eFill : m'.nEFill = m.nEFill
  c_eCap : m'.nECap = m.nECap
  c_vFill : m'.nVFill = m.nVFill
  c_vCap : m'.nVCap = m.nVCap
  c_fFill : m'.nFFill = m.nFFill
  c_fCap : m'.nFCap = m.nFCap
  c_blFill : m'.nBLFill = m.nBLFill
  c_he : m'.nHe = m.nHe - 2
  c_int : m'.nInt = m.nInt - (if m.heFace B < m.nFFill then 2 else 1)
  c_e : m'.nE = m.nE - 1
  c_v : m'.nV = m.nV - 1
  c_f : m'.nF = m.nF
  c_bl : m'.nBL = m.nBL

section
variable {m m' : Mesh} {A B : ℕ}

theorem ConSpec.live (hv : m.Valid) (S : ConSpec m m' A B) (i : ℕ) :
    m'.heLive i ↔ (m.heLive i ∧ i ≠ A ∧ i ≠ B) := by
  have lB : m.heLive B := by rw [S.hB]; exact hv.twin_live _ S.lA
  by_cases hA : i = A
  · subst hA; simp [heLive, S.next_A]
  by_cases hB : i = B
  · subst hB; simp [heLive, S.next_B]
  simp only [hA, hB, ne_eq, not_false_eq_true, and_true]
  by_cases hi : m.heLive i
  · refine iff_of_true ⟨by rw [S.c_heFill]; exact hi.1, ?_⟩ hi
    rw [S.next_o i hi hA hB]
    split_ifs
    · exact (hv.live_lt_INV (hv.next_live _ S.lA)).ne
    · exact (hv.live_lt_INV (hv.next_live _ S.lA)).ne
    · exact (hv.live_lt_INV (hv.next_live _ lB)).ne
    · exact hi.2
  · refine iff_of_false ?_ hi
    unfold heLive at hi ⊢; rw [S.c_heFill, S.next_dead i hi]; exact hi

/-- The contraction of an edge with different endpoints that does not close a boundary gives a valid mesh. -/
theorem con_valid (hv : m.Valid) (S : ConSpec m m' A B) : m'.Valid ∧
    (∀ i, m.heLive i → i ≠ A → i ≠ B → (m'.ext i ↔ m.ext i)) ∧ 2 ≤ m.nHe ∧ 1 ≤ m.nE ∧ 1 ≤ m.nV ∧
    (if m.heFace B < m.nFFill then 2 else 1) ≤ m.nInt := by
  classical
  have lA := S.lA
  have lB : m.heLive B := by rw [S.hB]; exact hv.twin_live _ S.lA
  have hlive := S.live hv
  have tA : twin A = B := S.hB.symm
  have tB : twin B = A := by rw [S.hB, twin_twin]
  have AB : A ≠ B := by rintro h; rw [← tA] at h; exact twin_ne A h.symm
  have nA : m.heLive (m.heNext A) := hv.next_live _ lA
  have nB : m.heLive (m.heNext B) := hv.next_live _ lB
  have nAA : m.heNext A ≠ A := hv.deg_two _ lA
  have nBB : m.heNext B ≠ B := hv.deg_two _ lB
  have nAB := S.nAB
  have lnA : m'.heLive (m.heNext A) := (hlive _).2 ⟨nA, nAA, nAB⟩
  have htl : ∀ i, m'.heLive i → m'.heLive (twin i) := by
    intro i hi
    obtain ⟨h, h1, h2⟩ := (hlive i).1 hi
    refine (hlive _).2 ⟨hv.twin_live _ h, ?_, ?_⟩
    · rw [Ne, twin_eq_iff, tA]; exact h2
    · rw [Ne, twin_eq_iff, tB]; exact h1
  have hnl : ∀ i, m'.heLive i → m'.heLive (m'.heNext i) := by
    intro i hi
    obtain ⟨h, h1, h2⟩ := (hlive i).1 hi
    rw [S.next_o i h h1 h2]
    split_ifs with c1 c2 c3
    · exact lnA
    · exact lnA
    · exact (hlive _).2 ⟨nB, c3, nBB⟩
    · exact (hlive _).2 ⟨hv.next_live _ h, c1, c2⟩
  have nlA : ¬ m'.heLive A := fun h => ((hlive _).1 h).2.1 rfl
  have nlB : ¬ m'.heLive B := fun h => ((hlive _).1 h).2.2 rfl
  have step : ∀ (g : ℕ → ℕ) (x : ℕ), g A = m.heNext A → g B = m.heNext B → ∀ w, g x = w →
      ∃ k, g^[k + 1] x = (if w = A then m.heNext A
        else if w = B then (if m.heNext B = A then m.heNext A else m.heNext B) else w) ∧
        ∀ j < k, ¬ m'.heLive (g^[j + 1] x) := by
    intro g x gA gB w hw
    by_cases c1 : w = A
    · refine ⟨1, ?_, ?_⟩
      · rw [if_pos c1, Function.iterate_succ_apply, Function.iterate_one, hw, c1, gA]
      · intro j hj
        have : j = 0 := by omega
        subst this
        rw [Function.iterate_one, hw, c1]; exact nlA
    rw [if_neg c1]
    by_cases c2 : w = B
    · rw [if_pos c2]
      by_cases c3 : m.heNext B = A
      · refine ⟨2, ?_, ?_⟩
        · rw [if_pos c3, Function.iterate_succ_apply, Function.iterate_succ_apply, Function.iterate_one, hw, c2, gB, c3, gA]
        · intro j hj
          have : j = 0 ∨ j = 1 := by omega
          rcases this with rfl | rfl
          · rw [Function.iterate_one, hw, c2]; exact nlB
          · rw [Function.iterate_succ_apply, Function.iterate_one, hw, c2, gB, c3]; exact nlA
      · refine ⟨1, ?_, ?_⟩
        · rw [if_neg c3, Function.iterate_succ_apply, Function.iterate_one, hw, c2, gB]
        · intro j hj
          have : j = 0 := by omega
          subst this
          rw [Function.iterate_one, hw, c2]; exact nlB
    · exact ⟨0, by rw [if_neg c2, Function.iterate_one, hw], fun j hj => by omega⟩
  have hper := hv.per_vx
  have hnot : ¬ Orb m.vx A B := fun o => S.vne ((hv.vertex_vx_iff lA lB).2 o)
  have forb : ∀ {i j}, m'.heLive i → m'.heLive j → (Orb m'.heNext i j ↔ m.heFace i = m.heFace j) := by
    intro i j hi hj
    have hi0 := ((hlive i).1 hi).1
    have hj0 := ((hlive j).1 hj).1
    rw [hv.face_iff i j hi0 hj0]
    refine (orb_first (f := m'.heNext) (g := m.heNext) (fun z => m'.heLive z) hnl ?_ hi hj).symm
    intro x hx
    obtain ⟨h, h1, h2⟩ := (hlive _).1 hx
    rw [S.next_o _ h h1 h2]
    exact step m.heNext x rfl rfl _ rfl
  have vorb : ∀ {i j}, m'.heLive i → m'.heLive j → (Orb m'.vNext i j ↔
      (m.heVertex i = m.heVertex j ∨ ((m.heVertex i = m.heVertex A ∨ m.heVertex i = m.heVertex B) ∧
        (m.heVertex j = m.heVertex A ∨ m.heVertex j = m.heVertex B)))) := by
    intro i j hi hj
    have hi0 := ((hlive i).1 hi).1
    have hj0 := ((hlive j).1 hj).1
    rw [← orb_first (f := m'.vNext) (g := swapf m.vx A B) (fun z => m'.heLive z) (fun z hz => hnl _ (htl z hz)) ?_ hi hj,
      swapf_merge hper hnot, ← hv.vertex_vx_iff hi0 hj0, ← hv.vertex_vx_iff lA hi0, ← hv.vertex_vx_iff lA hj0,
      ← hv.vertex_vx_iff lB hi0, ← hv.vertex_vx_iff lB hj0]
    · simp only [eq_comm]
    · intro x hx
      obtain ⟨h0, h1, h2⟩ := (hlive x).1 hx
      obtain ⟨g, g1, g2⟩ := (hlive _).1 (htl x hx)
      show ∃ k, _ = m'.heNext (twin x) ∧ _
      rw [S.next_o _ g g1 g2]
      refine step _ x ?_ ?_ _ ?_
      · rw [swapf_left]; unfold vx; rw [tB, nx_live lA]
      · rw [swapf_right]; unfold vx; rw [tA, nx_live lB]
      · rw [swapf_other _ h1 h2]; unfold vx; rw [nx_live g]
  have ext_old : ∀ {i}, m.heLive i → i ≠ A → i ≠ B → (m'.ext i ↔ m.ext i) := by
    intro i hi h1 h2
    unfold ext; rw [S.f_o i hi h1 h2, S.c_fFill]
  have ext_inv : ∀ {i}, m'.heLive i → m'.ext i → m.heLive i ∧ m.ext i := by
    intro i hi ei
    obtain ⟨h, h1, h2⟩ := (hlive i).1 hi
    exact ⟨h, (ext_old h h1 h2).1 ei⟩
  have vlive : ∀ v, m'.vLive v ↔ m.vLive v ∧ v ≠ m.heVertex A := by
    intro v
    by_cases c : m.vLive v
    · by_cases c2 : v = m.heVertex A
      · simp only [c2, ne_eq, not_true, and_false, iff_false]
        exact fun h => h.2 S.vh_A
      · refine iff_of_true ⟨by rw [S.c_vFill]; exact c.1, ?_⟩ ⟨c, c2⟩
        have l := (S.vh_l v c c2).1
        exact (hv.live_lt_INV ((hlive _).1 l).1).ne
    · refine iff_of_false ?_ (fun h => c h.1)
      unfold vLive at c ⊢; rw [S.c_vFill, S.vh_d v c]; exact c
  have flive : ∀ f, m'.fLive f ↔ m.fLive f := by
    intro f
    by_cases c : m.fLive f
    · refine iff_of_true ?_ c
      have l := (S.fh_l f c).1
      have := (hv.live_lt_INV ((hlive _).1 l).1).ne
      unfold fLive at c ⊢; rw [S.c_fFill, S.c_fCap, S.c_blFill]; exact ⟨c.1, this⟩
    · refine iff_of_false ?_ c
      unfold fLive at c ⊢; rw [S.c_fFill, S.c_fCap, S.c_blFill, S.fh_d f c]; exact c
  have hN := hv.he_fill
  have hAlt := lA.1
  have hBe : B / 2 = A / 2 := by rw [S.hB, twin_div]
  have fA := Valid.face_lt S.iA
  have cHe : Nat.count (fun i => m.heNext i ≠ INV) m.nHeFill = Nat.count (fun i => m'.heNext i ≠ INV) m.nHeFill + 2 := by
    refine count_sub_list [A, B] (by simp [AB]) ?_ ?_
    · intro a ha
      simp only [List.mem_cons, List.not_mem_nil, or_false] at ha
      rcases ha with rfl | rfl
      exacts [lA, lB]
    · intro i hi
      have := hlive i; unfold heLive at this; rw [S.c_heFill] at this
      simp only [List.mem_cons, List.not_mem_nil, or_false, not_or]; tauto
  have cInt : Nat.count (fun i => m.heNext i ≠ INV ∧ m.heFace i < m.nFFill) m.nHeFill =
      Nat.count (fun i => m'.heNext i ≠ INV ∧ m'.heFace i < m'.nFFill) m.nHeFill +
        (if m.heFace B < m.nFFill then 2 else 1) := by
    have key : ∀ i < m.nHeFill, ((m'.heNext i ≠ INV ∧ m'.heFace i < m'.nFFill) ↔
        (m.heNext i ≠ INV ∧ m.heFace i < m.nFFill) ∧ i ≠ A ∧ i ≠ B) := by
      intro i hi
      have hl := hlive i; unfold heLive at hl; rw [S.c_heFill] at hl
      constructor
      · rintro ⟨h1, h2⟩
        obtain ⟨a, b, c⟩ := hl.1 ⟨hi, h1⟩
        rw [S.f_o i a b c, S.c_fFill] at h2
        exact ⟨⟨a.2, h2⟩, b, c⟩
      · rintro ⟨⟨h1, h2⟩, b, c⟩
        exact ⟨(hl.2 ⟨⟨hi, h1⟩, b, c⟩).2, by rw [S.f_o i ⟨hi, h1⟩ b c, S.c_fFill]; exact h2⟩
    by_cases c : m.heFace B < m.nFFill
    · rw [if_pos c]
      refine count_sub_list [A, B] (by simp [AB]) ?_ ?_
      · intro a ha
        simp only [List.mem_cons, List.not_mem_nil, or_false] at ha
        rcases ha with rfl | rfl
        exacts [⟨lA.1, lA.2, fA⟩, ⟨lB.1, lB.2, c⟩]
      · intro i hi
        rw [key i hi]
        simp only [List.mem_cons, List.not_mem_nil, or_false, not_or]
    · rw [if_neg c]
      refine count_sub_list [A] (by simp) ?_ ?_
      · intro a ha
        simp only [List.mem_cons, List.not_mem_nil, or_false] at ha
        subst ha
        exact ⟨lA.1, lA.2, fA⟩
      · intro i hi
        rw [key i hi]
        simp only [List.mem_cons, List.not_mem_nil, or_false]
        constructor
        · rintro ⟨h, h1, -⟩; exact ⟨h, h1⟩
        · rintro ⟨h, h1⟩; exact ⟨h, h1, fun e => c (e ▸ h.2)⟩
  have cE : Nat.count (fun e => m.heNext (eHalfedge e) ≠ INV) m.nEFill =
      Nat.count (fun e => m'.heNext (eHalfedge e) ≠ INV) m.nEFill + 1 := by
    have hAB2 : 2 * (A / 2) = A ∨ 2 * (A / 2) = B := by
      rcases (show 2 * (A / 2) = A ∨ 2 * (A / 2) = twin A by rw [twin_eq]; split_ifs <;> omega) with h | h
      · exact .inl h
      · exact .inr (h.trans tA)
    refine count_add_one (a := A / 2) (by omega) ?_ ?_ ?_
    · unfold eHalfedge; rcases hAB2 with h | h <;> rw [h]
      · simp [S.next_A]
      · simp [S.next_B]
    · unfold eHalfedge; rcases hAB2 with h | h <;> rw [h]
      · exact lA.2
      · exact lB.2
    · intro e he hne
      unfold eHalfedge
      have hl := hlive (2 * e); unfold heLive at hl; rw [S.c_heFill] at hl
      have h1 : 2 * e ≠ A := by omega
      have h2 : 2 * e ≠ B := by omega
      have h3 : 2 * e < m.nHeFill := by omega
      simp only [h1, h2, h3, ne_eq, not_false_eq_true, and_true, true_and] at hl
      exact hl
  have cV : Nat.count (fun v => m.vHalfedge v ≠ INV) m.nVFill =
      Nat.count (fun v => m'.vHalfedge v ≠ INV) m.nVFill + 1 := by
    have vA := hv.vertex_live _ lA
    refine count_add_one (a := m.heVertex A) vA.1 ?_ vA.2 ?_
    · simp [S.vh_A]
    · intro v hvv hne
      have := vlive v
      unfold vLive at this; rw [S.c_vFill] at this
      simp only [hvv, true_and, hne, ne_eq, not_false_eq_true, and_true] at this
      exact this
  refine ⟨?_, fun i hi h1 h2 => ext_old hi h1 h2, by have := hv.cnt_he; omega, by have := hv.cnt_e; omega,
    by have := hv.cnt_v; omega, by have := hv.cnt_int; omega⟩
  constructor
  · rw [S.c_heFill, S.c_eFill]; exact hv.he_fill
  · rw [S.c_heFill, S.c_heCap]; exact hv.he_cap
  · rw [S.c_heCap, S.c_eCap]; exact hv.e_cap
  · rw [S.c_vFill, S.c_vCap]; exact hv.v_cap
  · rw [S.c_fFill, S.c_blFill, S.c_fCap]; exact hv.f_cap
  · exact htl
  · exact hnl
  · intro i hi
    obtain ⟨h, h1, h2⟩ := (hlive i).1 hi
    rw [vlive, S.v_o i h h1 h2]
    split_ifs with c
    · exact ⟨hv.vertex_live _ lB, S.vne.symm⟩
    · exact ⟨hv.vertex_live _ h, c⟩
  · intro i hi
    obtain ⟨h, h1, h2⟩ := (hlive i).1 hi
    rw [flive, S.f_o i h h1 h2]; exact hv.face_live _ h
  · intro i j hi hj
    rw [forb hi hj]
    obtain ⟨h, h1, h2⟩ := (hlive i).1 hi
    obtain ⟨h', h1', h2'⟩ := (hlive j).1 hj
    rw [S.f_o i h h1 h2, S.f_o j h' h1' h2']
  · intro i j hi hj
    rw [vorb hi hj]
    obtain ⟨h, h1, h2⟩ := (hlive i).1 hi
    obtain ⟨h', h1', h2'⟩ := (hlive j).1 hj
    rw [S.v_o i h h1 h2, S.v_o j h' h1' h2']
    have := S.vne
    split_ifs with c1 c2 c2
    · rw [c1, c2]; simp
    · constructor
      · intro h; exact Or.inr ⟨Or.inl c1, Or.inr h.symm⟩
      · rintro (h | ⟨-, h | h⟩)
        · exact absurd (h.symm.trans c1) c2
        · exact absurd h c2
        · exact h.symm
    · constructor
      · intro h; exact Or.inr ⟨Or.inr h, Or.inl c2⟩
      · rintro (h | ⟨h | h, -⟩)
        · exact absurd (h.trans c2) c1
        · exact absurd h c1
        · exact h
    · constructor
      · intro h; exact Or.inl h
      · rintro (h | ⟨h | h, h' | h'⟩)
        · exact h
        · exact absurd h c1
        · exact absurd h c1
        · exact absurd h' c2
        · rw [h, h']
  · intro v hvl
    obtain ⟨h1, h2⟩ := (vlive v).1 hvl
    exact S.vh_l v h1 h2
  · intro f hf
    exact S.fh_l f ((flive f).1 hf)
  · exact S.deg
  · intro e he
    obtain ⟨h, h1, h2⟩ := (hlive _).1 he
    rw [ext_old h h1 h2]; exact hv.edge_int e h
  · intro i j hi hj ei ej hij
    obtain ⟨h, h1, h2⟩ := (hlive i).1 hi
    obtain ⟨h', h1', h2'⟩ := (hlive j).1 hj
    have xi := (ext_inv hi ei).2
    have xj := (ext_inv hj ej).2
    rw [S.v_o i h h1 h2, S.v_o j h' h1' h2'] at hij
    split_ifs at hij with c1 c2 c2
    · exact hv.bdy_unique i j h h' xi xj (c1.trans c2.symm)
    · exact absurd hij.symm (S.bdy i j h h' h2 h2' xi xj c1)
    · exact absurd hij (S.bdy j i h' h h2' h2 xj xi c2)
    · exact hv.bdy_unique i j h h' xi xj hij
  · exact S.vh_b
  · rw [S.c_he, S.c_heFill, hv.cnt_he, cHe]; rfl
  · rw [S.c_int, S.c_heFill, hv.cnt_int, cInt, Nat.add_sub_cancel]
  · rw [S.c_e, S.c_eFill, hv.cnt_e, cE]; rfl
  · rw [S.c_v, S.c_vFill, hv.cnt_v, cV]; rfl
  · rw [S.c_f, S.c_fFill, hv.cnt_f]
    refine count_congr fun f hff => ?_
    have := flive f; unfold fLive at this; rw [S.c_fFill] at this
    simp only [hff, true_or, true_and] at this; exact this.symm
  · rw [S.c_bl, S.c_blFill]; exact hv.cnt_bl
  · intro f h1 h2
    rw [S.c_fCap, S.c_blFill] at h1; rw [S.c_fCap] at h2
    have : m.fLive f := ⟨Or.inr ⟨h1, h2⟩, hv.bl_live f h1 h2⟩
    exact ((flive f).2 this).2

end

end Mesh
end GC
