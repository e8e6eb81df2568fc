import Verif.SubdivideFaces

/-! # The effect of one iteration of the loop over the faces in subdivide.cpp -/

namespace GC
open Mesh

/-- The sides of the face `f` are the parts `fst i`, `snd i` of the halfedges `i` in `I`; the former start at original vertices. -/
structure FaceIn (m : Mesh) (f : ℕ) (I : ℕ → Prop) (nx fst snd : ℕ → ℕ) (org : ℕ → Bool) : Prop where
  nx_mem : ∀ i, I i → I (nx i)
  mem : ∀ x, (m.heLive x ∧ m.heFace x = f) ↔ ∃ i, I i ∧ (x = fst i ∨ x = snd i)
  n1 : ∀ i, I i → m.heNext (fst i) = snd i
  n2 : ∀ i, I i → m.heNext (snd i) = fst (nx i)
  inj1 : ∀ i j, I i → I j → fst i = fst j → i = j
  inj2 : ∀ i j, I i → I j → snd i = snd j → i = j
  dis : ∀ i j, I i → I j → fst i ≠ snd j
  o1 : ∀ i, I i → org (m.heVertex (fst i)) = true
  o2 : ∀ i, I i → org (m.heVertex (snd i)) = false

/-- What the iteration does to the face `f`: `inn i` runs from the middle of `i` to the new vertex, `inn i + 1` back. -/
structure FaceOut {P : Type} (s s' : SubSt P) (f : ℕ) (I : ℕ → Prop) (nx fst snd inn : ℕ → ℕ) (d : ℕ) (p : P) : Prop where
  valid : s'.m.Valid
  ev : ∀ i, I i → inn i % 2 = 0
  ge : ∀ i, I i → s.m.nHeFill ≤ inn i
  inj : ∀ i j, I i → I j → inn i = inn j → i = j
  live : ∀ x, s'.m.heLive x ↔ s.m.heLive x ∨ ∃ i, I i ∧ (x = inn i ∨ x = inn i + 1)
  n_fst : ∀ i, I i → s'.m.heNext (fst i) = inn i
  n_inn : ∀ i, I i → s'.m.heNext (inn (nx i)) = inn i + 1
  n_out : ∀ i, I i → s'.m.heNext (inn i + 1) = snd i
  n_snd : ∀ i, I i → s'.m.heNext (snd i) = fst (nx i)
  n_o : ∀ x, s.m.heLive x → s.m.heFace x ≠ f → s'.m.heNext x = s.m.heNext x
  v_o : ∀ x, s.m.heLive x → s'.m.heVertex x = s.m.heVertex x
  v_inn : ∀ i, I i → s'.m.heVertex (inn i) = s.m.heVertex (snd i)
  v_out : ∀ i, I i → s'.m.heVertex (inn i + 1) = s.m.nVFill
  f_o : ∀ x, s.m.heLive x → ¬ s.m.ext x → s.m.heFace x ≠ f → s'.m.heFace x = s.m.heFace x
  f_i : ∀ x, s'.m.heLive x → (s.m.heLive x → s.m.heFace x = f) → ¬ s'.m.ext x ∧ (s'.m.heFace x = f ∨ s.m.nFFill ≤ s'.m.heFace x)
  ext : ∀ x, s.m.heLive x → (s'.m.ext x ↔ s.m.ext x)
  fh : ∀ g, g < s.m.nFFill → g ≠ f → s'.m.fHalfedge g = s.m.fHalfedge g
  card : ∀ L : Finset ℕ, (∀ i, i ∈ L ↔ s.m.heLive i ∧ s.m.heFace i = f) → L.card = d
  heFill : s'.m.nHeFill = s.m.nHeFill + 2 * d
  vFill : s'.m.nVFill = s.m.nVFill + 1
  fFill : s'.m.nFFill + 1 = s.m.nFFill + d
  c_v : s'.m.nV = s.m.nV + 1
  c_bl : s'.m.nBL = s.m.nBL
  c_fe : s'.m.nF + s.m.nE + 1 = s.m.nF + s'.m.nE
  origV : s'.origV = Function.update s.origV s.m.nVFill false
  pos : s'.pos = Function.update s.pos s.m.nVFill p
  origF : ∀ g, g < s.m.nFFill → g ≠ f → s'.origF g = s.origF g

theorem foldl_update_other (l : List ℕ) (g : ℕ) : ∀ o : ℕ → Bool, g ∉ l → l.foldl (fun o f => Function.update o f false) o g = o g := by
  induction l with
  | nil => intro o _; rfl
  | cons x l ih =>
    intro o h
    simp only [List.mem_cons, not_or] at h
    rw [List.foldl_cons, ih _ h.2, Function.update_of_ne h.1]

theorem splitFaceStep_ok {P : Type} {s : SubSt P} {f : ℕ} {I : ℕ → Prop} {nx fst snd : ℕ → ℕ} {splitF : ℕ → P} (hv : s.m.Valid)
    (hf : s.m.fLive f) (hint : f < s.m.nFFill) (ho : s.origF f = true) (F : FaceIn s.m f I nx fst snd s.origV) :
    (∃ s' inn d, splitFaceStep splitF s f = .ok s' ∧ FaceOut s s' f I nx fst snd inn d (splitF f)) ∨
      (splitFaceStep splitF s f = .error .oom ∧ ∃ d, s.m.nearLimit d ∧
        ∀ L : Finset ℕ, (∀ i, i ∈ L ↔ s.m.heLive i ∧ s.m.heFace i = f) → L.card = d) := by
  classical
  unfold splitFaceStep
  rw [if_neg (by simpa using hf), if_neg (by simp [ho])]
  rcases iv_spec hv hf hint with ⟨h, d, hc, lim⟩ | ⟨m', m0, d, h, G, S⟩
  · right; rw [h]; exact ⟨rfl, d, lim, hc⟩
  left
  rw [h]
  obtain ⟨g1, g2, g3, ⟨g4, g5, -, -⟩, ⟨g6, g7, -⟩, ⟨g8, g9, -⟩, ⟨g10, g11, g12, g13⟩, -⟩ := G.facts
  have hv0 := G.valid hv
  have lv0 := G.heLive
  generalize hb : (fun j => s.m.heNext^[j] (s.m.fHalfedge f)) = b at S
  have hval' := iv_valid hv0 S
  have lv := S.live hv0
  have hd := S.hd
  have face0 : ∀ x, s.m.heLive x → (m0.heFace x = f ↔ s.m.heFace x = f) := by
    intro x hx
    by_cases e : s.m.ext x
    · have e' := (G.ext (i := x)).2 e
      unfold Mesh.ext at e e'
      constructor <;> intro h <;> omega
    · rw [G.face_int e]
  have bmem : ∀ x, (s.m.heLive x ∧ s.m.heFace x = f) ↔ ∃ k < d, x = b k := by
    intro x; rw [← S.bmem, lv0]
    constructor
    · rintro ⟨a, c⟩; exact ⟨a, (face0 x a).2 c⟩
    · rintro ⟨a, c⟩; exact ⟨a, (face0 x a).1 c⟩
  have bsucc : ∀ j, b (j + 1) = s.m.heNext (b j) := fun j => by rw [S.bsucc, g1]
  have blt : ∀ j, j < d → m0.heVertex (b (j + 1)) < m0.nVFill := fun j hj => by
    obtain ⟨k, hk, e⟩ := S.b_succ_mem hj
    rw [e]; exact (hv0.vertex_live _ (S.b_live hk).1).1
  -- the vertex
  have vl : m'.vLive m0.nVFill := by
    refine ⟨by rw [S.c_vFill]; omega, ?_⟩
    rw [S.vh]; have := S.c_heCap; omega
  have outg : ∀ i, m'.heLive i → m'.heVertex i = m0.nVFill → ∃ k < d, i = m0.nHeFill + 2 * k + 1 := by
    intro i hi hvi
    rcases (lv i).1 hi with h | ⟨k, hk, rfl | rfl⟩
    · rw [S.v_o i h.1] at hvi; have := (hv0.vertex_live _ h).1; omega
    · rw [S.v_l k hk] at hvi; have := blt k hk; omega
    · exact ⟨k, hk, rfl⟩
  obtain ⟨lo, -, -, hlo, -, -, -, -, -, hfs⟩ := C49_vertex_outgoing m' hval' _ vl
  obtain ⟨inc, hinc, hnd, hmem, -⟩ := C49_vertex_incoming m' hval' _ vl
  have hmem' : ∀ i, i ∈ inc ↔ ∃ k < d, i = m0.nHeFill + 2 * k := by
    intro i; rw [hmem]
    constructor
    · rintro ⟨hi, hvi⟩
      obtain ⟨k, hk, e⟩ := outg _ (hval'.next_live i hi) hvi
      obtain ⟨j, hj, ej⟩ := pr_surj hk
      refine ⟨j, hj, hval'.next_inj hi ((lv _).2 (.inr ⟨j, hj, .inl rfl⟩)) ?_⟩
      rw [e, S.next_l j hj, ej]
    · rintro ⟨k, hk, rfl⟩
      exact ⟨(lv _).2 (.inr ⟨k, hk, .inl rfl⟩), by rw [S.next_l k hk, S.v_q _ (pr_lt hd)]⟩
  rw [← g7]
  simp only [bind, Except.bind, hfs, hinc]
  -- fst and snd alternate
  have ou : ∀ j, j < d → Function.update s.origV m0.nVFill false (m0.heVertex (b (j + 1))) = s.origV (s.m.heVertex (b (j + 1))) := by
    intro j hj; rw [Function.update_of_ne (by have := blt j hj; omega), g2]
  have kind : ∀ k < d, (∃ i, I i ∧ b k = fst i) ∨ ∃ i, I i ∧ b k = snd i := by
    intro k hk
    obtain ⟨i, hi, h | h⟩ := (F.mem (b k)).1 ((bmem _).2 ⟨k, hk, rfl⟩)
    · exact .inl ⟨i, hi, h⟩
    · exact .inr ⟨i, hi, h⟩
  have kf : ∀ {k i}, k < d → I i → b k = fst i → b (k + 1) = snd i ∧ s.origV (s.m.heVertex (b (k + 1))) = false := by
    intro k i hk hi e
    have : b (k + 1) = snd i := by rw [bsucc, e, F.n1 i hi]
    exact ⟨this, by rw [this, F.o2 i hi]⟩
  have ks : ∀ {k i}, k < d → I i → b k = snd i → b (k + 1) = fst (nx i) ∧ s.origV (s.m.heVertex (b (k + 1))) = true := by
    intro k i hk hi e
    have : b (k + 1) = fst (nx i) := by rw [bsucc, e, F.n2 i hi]
    exact ⟨this, by rw [this, F.o1 _ (F.nx_mem i hi)]⟩
  have alt : ∀ k < d, Function.update s.origV m0.nVFill false (m0.heVertex (b (k + 1))) = true ↔
      ¬ Function.update s.origV m0.nVFill false (m0.heVertex (b (pr d k + 1))) = true := by
    intro k hk
    have hp := pr_lt (k := k) hd
    rw [ou k hk, ou _ hp]
    rcases kind _ hp with ⟨i, hi, e⟩ | ⟨i, hi, e⟩
    · have h1 := kf hp hi e
      rw [S.b_pr hk] at h1
      rw [S.b_pr hk, (ks hk hi h1.1).2, h1.1, F.o2 i hi]; simp
    · have h1 := ks hp hi e
      rw [S.b_pr hk] at h1
      rw [S.b_pr hk, (kf hk (F.nx_mem i hi) h1.1).2, h1.1, F.o1 _ (F.nx_mem i hi)]; simp
  obtain ⟨s', e, J, h1, h2, -, h4⟩ := merge_ok (s := { s with m := m', origV := Function.update s.origV m0.nVFill false, pos := Function.update s.pos m0.nVFill (splitF f), origF := ((lo.filter (fun i => m'.heFace i < m'.nFFill)).map m'.heFace).foldl (fun o f => Function.update o f false) s.origF }) hv0 S rfl alt hnd hmem'
  simp only at J h1 h2 h4
  -- the index of a first part
  have hk : ∀ i, ∃ k, I i → k < d ∧ b k = fst i := by
    intro i
    by_cases hi : I i
    · obtain ⟨k, hk, e⟩ := (bmem _).1 ((F.mem (fst i)).2 ⟨i, hi, .inl rfl⟩)
      exact ⟨k, fun _ => ⟨hk, e.symm⟩⟩
    · exact ⟨0, fun h => (hi h).elim⟩
  choose kF hkF using hk
  have nT : ∀ {i}, I i → ¬ Function.update s.origV m0.nVFill false (m0.heVertex (b (kF i + 1))) = true := by
    intro i hi
    rw [ou _ (hkF i hi).1, (kf (hkF i hi).1 hi (hkF i hi).2).2]; simp
  have kuniq : ∀ {k i}, I i → k < d → b k = fst i → k = kF i := fun {k i} hi hk e =>
    S.binj _ _ hk (hkF i hi).1 (e.trans (hkF i hi).2.symm)
  have lold : ∀ {x}, s.m.heLive x → s'.m.heLive x := fun {x} hx => (J.live x).2 ⟨(lv x).2 (.inl ((lv0 x).2 hx)), by
    rintro ⟨k, _, _, h⟩; have := hx.1; omega⟩
  have lspoke : ∀ {i x}, I i → (x = m0.nHeFill + 2 * kF i ∨ x = m0.nHeFill + 2 * kF i + 1) → s'.m.heLive x := by
    intro i x hi hx
    refine (J.live x).2 ⟨(lv x).2 (.inr ⟨kF i, (hkF i hi).1, hx⟩), ?_⟩
    rintro ⟨k, _, ht, h⟩
    have : k = kF i := by omega
    subst this; exact nT hi ht
  have live' : ∀ x, s'.m.heLive x ↔ s.m.heLive x ∨ ∃ i, I i ∧ (x = m0.nHeFill + 2 * kF i ∨ x = m0.nHeFill + 2 * kF i + 1) := by
    intro x
    constructor
    · intro hx
      obtain ⟨a, c⟩ := (J.live x).1 hx
      rcases (lv x).1 a with h | ⟨k, hk, h⟩
      · exact .inl ((lv0 x).1 h)
      · right
        rcases kind k hk with ⟨i, hi, e⟩ | ⟨i, hi, e⟩
        · exact ⟨i, hi, by rw [← kuniq hi hk e]; exact h⟩
        · exact (c ⟨k, hk, by rw [ou k hk]; exact (ks hk hi e).2, h⟩).elim
    · rintro (h | ⟨i, hi, h⟩)
      · exact lold h
      · exact lspoke hi h
  have notb : ∀ {x}, s.m.heFace x ≠ f → ∀ k < d, x ≠ b k := fun {x} hx k hk e => hx ((bmem x).2 ⟨k, hk, e⟩).2
  have fanc : ∀ k, m0.fanFace f k = f ∨ s.m.nFFill ≤ m0.fanFace f k := fun k => by
    unfold fanFace; split_ifs
    · exact .inl rfl
    · right; omega
  refine ⟨s', fun i => m0.nHeFill + 2 * kF i, d, e, ?_⟩
  have fill := hv0.he_fill
  exact {
    valid := J.valid
    ev := fun i hi => by omega
    ge := fun i hi => by omega
    inj := fun i j hi hj h => F.inj1 i j hi hj (by
      rw [← (hkF i hi).2, ← (hkF j hj).2, show kF i = kF j by omega])
    live := live'
    n_fst := fun i hi => by rw [← (hkF i hi).2]; exact J.nb _ (hkF i hi).1 (nT hi)
    n_inn := fun i hi => by
      have hi' := F.nx_mem i hi
      obtain ⟨a, c⟩ := hkF _ hi'
      have hp := pr_lt (k := kF (nx i)) hd
      have hpp := pr_lt (k := pr d (kF (nx i))) hd
      have ls : s.m.heLive (snd i) := ((F.mem _).2 ⟨i, hi, .inr rfl⟩).1
      have lf : s.m.heLive (fst i) := ((F.mem _).2 ⟨i, hi, .inl rfl⟩).1
      have e1 : b (pr d (kF (nx i))) = snd i := hv.next_inj ((bmem _).2 ⟨_, hp, rfl⟩).1 ls (by
        rw [← bsucc, S.b_pr a, c, F.n2 i hi])
      have e2 : b (pr d (pr d (kF (nx i)))) = fst i := hv.next_inj ((bmem _).2 ⟨_, hpp, rfl⟩).1 lf (by
        rw [← bsucc, S.b_pr hp, e1, F.n1 i hi])
      rw [← kuniq hi hpp e2]
      exact J.nl_r _ a (nT hi') (by rw [ou _ hp]; exact (ks hp hi e1).2)
    n_out := fun i hi => by rw [← (kf (hkF i hi).1 hi (hkF i hi).2).1]; exact J.nq _ (hkF i hi).1 (nT hi)
    n_snd := fun i hi => by
      obtain ⟨k, hk, e⟩ := (bmem _).1 ((F.mem (snd i)).2 ⟨i, hi, .inr rfl⟩)
      have := ks hk hi e.symm
      rw [e, J.nb_r k hk (by rw [ou k hk]; exact this.2), this.1]
    n_o := fun x hx hx' => by rw [J.no x ((lv0 x).2 hx) (notb hx'), g1]
    v_o := fun x hx => by rw [J.v x (lold hx), S.v_o x (by have := hx.1; omega), g2]
    v_inn := fun i hi => by
      rw [J.v _ (lspoke hi (.inl rfl)), S.v_l _ (hkF i hi).1, g2, (kf (hkF i hi).1 hi (hkF i hi).2).1]
    v_out := fun i hi => by
      rw [J.v _ (lspoke hi (.inr rfl)), S.v_q _ (hkF i hi).1, g7]
    f_o := fun x hx hx1 hx2 => by
      have e1 : m'.heFace x = s.m.heFace x := by rw [S.f_o x ((lv0 x).2 hx) (notb hx2), G.face_int hx1]
      rw [J.f_o x (lold hx) (fun k hk => ?_), e1]
      rw [e1]; intro h
      unfold Mesh.ext at hx1
      rcases fanc k with h' | h'
      · exact hx2 (h.trans h')
      · omega
    f_i := fun x hx hx1 => by
      have hm : ∃ k < d, m'.heFace x = m0.fanFace f k := by
        rcases (lv x).1 ((J.live x).1 hx).1 with h | ⟨k, hk, rfl | rfl⟩
        · have h := (lv0 x).1 h
          obtain ⟨k, hk, rfl⟩ := (bmem x).1 ⟨h, hx1 h⟩
          exact ⟨k, hk, S.f_b k hk⟩
        · exact ⟨k, hk, S.f_l k hk⟩
        · obtain ⟨j, hj, ej⟩ := pr_surj hk
          exact ⟨j, hj, by rw [← ej]; exact S.f_q j hj⟩
      obtain ⟨k, hk, ek⟩ := hm
      have : ∃ k < d, s'.m.heFace x = m0.fanFace f k := by
        by_cases c : Function.update s.origV m0.nVFill false (m0.heVertex (b (pr d k + 1))) = true
        · exact ⟨_, pr_lt hd, J.f_r x hx k hk ek c⟩
        · exact ⟨k, hk, J.f_n x hx k hk ek c⟩
      obtain ⟨k, hk, e⟩ := this
      rw [e]
      refine ⟨?_, fanc k⟩
      unfold Mesh.ext; rw [e, J.fFill]; have := fan_lt S hk; omega
    ext := fun x hx => by
      rw [J.ext x (lold hx), ← G.ext]
      have l0 := (lv0 x).2 hx
      unfold Mesh.ext
      by_cases c : s.m.heFace x = f
      · obtain ⟨k, hk, rfl⟩ := (bmem x).1 ⟨hx, c⟩
        rw [S.f_b k hk, (face0 _ hx).2 c]
        have := fan_lt S hk
        omega
      · rw [S.f_o x l0 (notb c), S.c_fFill]
        constructor
        · omega
        · intro h
          have := hv0.face_ext_region l0 h
          have := S.c_space
          omega
    fh := fun g hg hgf => by
      have hn : ∀ k < d, g ≠ m0.fanFace f k := fun k _ h => by
        rcases fanc k with h' | h'
        · exact hgf (h.trans h')
        · omega
      rw [J.fh g hn, S.fh_o g hn, G.fHalfedge hv hg]
    card := fun L hL => by
      have : L = (Finset.range d).image b := by
        ext x; rw [hL, bmem, Finset.mem_image]
        constructor
        · rintro ⟨k, hk, rfl⟩; exact ⟨k, Finset.mem_range.2 hk, rfl⟩
        · rintro ⟨k, hk, rfl⟩; exact ⟨k, Finset.mem_range.1 hk, rfl⟩
      rw [this, Finset.card_image_of_injOn, Finset.card_range]
      intro j hj k hk h
      simp at hj hk
      exact S.binj j k hj hk h
    heFill := by rw [J.heFill, S.c_heFill, g5]
    vFill := by rw [J.vFill, S.c_vFill, g7]
    fFill := by rw [J.fFill, S.c_fFill, g11]; omega
    c_v := by rw [J.c_v, S.c_v, g6]
    c_bl := by rw [J.c_bl, S.c_bl, g12]
    c_fe := by
      have := J.c_fe; rw [S.c_e, S.c_f] at this; omega
    origV := by rw [h1, g7]
    pos := by rw [h2, g7]
    origF := fun g hg hgf => by
      have hn : ∀ k < d, g ≠ m0.fanFace f k := fun k _ h => by
        rcases fanc k with h' | h'
        · exact hgf (h.trans h')
        · omega
      rw [h4 g hn, foldl_update_other]
      intro hc
      simp only [List.mem_map, List.mem_filter] at hc
      obtain ⟨i, ⟨hi, -⟩, rfl⟩ := hc
      obtain ⟨a, c⟩ := (hlo i).1 hi
      obtain ⟨k, hk, rfl⟩ := outg i a c
      obtain ⟨j, hj, ej⟩ := pr_surj hk
      exact hn j hj (by rw [← ej]; exact S.f_q j hj) }

end GC
