import Verif.LoopInv

/-! # One edge in `loopSubdivide` -/

namespace GC
open Mesh

/-- The pieces after the edge `A / 2` has been split. -/
def pcNew (pc : ℕ → ℕ → ℕ) (A B N i t : ℕ) : ℕ :=
  if i = A then (if t = 0 then N else if t = 1 then A else N + t)
  else if i = B then (if t = 0 then B else if t = 1 then N + 1 else N + 2 + t)
  else pc i t

section
variable {P : Type} {m : Mesh} {pos splitP : ℕ → P}

theorem subIn_le (m : Mesh) (n : ℕ) : subIn m n ≤ 2 * subRk m n := by
  induction n with
  | zero => simp [subIn]
  | succ n ih =>
    have e : subRk m (n + 1) = subRk m n + if m.heLive (2 * n) then 1 else 0 := by unfold subRk; rw [Nat.count_succ]
    rw [subIn, e]
    split_ifs <;> omega

theorem LInv.skip (hv : m.Valid) {n : ℕ} {pc : ℕ → ℕ → ℕ} {s : LoopSt P} (I : LInv m pos splitP n pc s) (hl : ¬ m.heLive (2 * n)) :
    LInv m pos splitP (n + 1) pc s := by
  have r : subRk m (n + 1) = subRk m n := by unfold subRk; rw [Nat.count_succ, if_neg hl, Nat.add_zero]
  have r' : subIn m (n + 1) = subIn m n := by rw [subIn, if_neg hl, Nat.add_zero]
  have nl : ∀ i, m.heLive i → i / 2 ≠ n := fun i hi h => hl (h ▸ live_even hv hi)
  have lt : ∀ i, m.heLive i → (i / 2 < n + 1 ↔ i / 2 < n) := fun i hi => by have := nl i hi; omega
  have ok : ∀ i t, okPc m (n + 1) i t ↔ okPc m n i t := fun i t => by
    unfold okPc
    constructor
    · rintro ⟨h1, h2⟩; rw [lt i h1] at h2; exact ⟨h1, h2⟩
    · rintro ⟨h1, h2⟩; rw [← lt i h1] at h2; exact ⟨h1, h2⟩
  exact {
    valid := I.valid, vFill := by rw [r]; exact I.vFill, heFill := by rw [r, r']; exact I.heFill, fFill := by rw [r']; exact I.fFill
    c_v := by rw [r]; exact I.c_v, c_e := by rw [r, r']; exact I.c_e, c_f := by rw [r']; exact I.c_f, c_bl := I.c_bl
    live := fun x => by simp only [ok]; exact I.live x
    inj := fun i t i' t' => by rw [ok, ok]; exact I.inj i t i' t'
    un := fun i hi h => I.un i hi (by omega)
    old := fun i t => by rw [ok]; exact I.old i t
    tw1 := fun i hi h => I.tw1 i hi ((lt i hi).1 h)
    tw2 := fun i hi hx h => I.tw2 i hi hx ((lt i hi).1 h)
    tab := fun i hi hx hf => by
      have l1 := hv.next_live _ hi
      have l2 := hv.next_live _ l1
      exact (I.tab i hi hx hf).keep (nl _ hi) (nl _ l1) (nl _ l2) (fun _ _ _ => rfl) (fun _ _ _ _ _ => rfl) hf.1 hf.2
    x1 := fun i hi hx h => I.x1 i hi hx ((lt i hi).1 h)
    x0 := fun i hi hx h => I.x0 i hi hx (by omega)
    v0 := I.v0
    v1 := fun i hi h => I.v1 i hi ((lt i hi).1 h)
    v2 := fun i hi hx h => I.v2 i hi hx ((lt i hi).1 h)
    ex := fun i t => by rw [ok]; exact I.ex i t
    origV := by rw [r]; exact I.origV
    origE := fun e h => I.origE e (by omega)
    flips := fun x => by
      rw [I.flips]
      constructor
      · rintro ⟨i, a, b, c, d, e⟩; exact ⟨i, a, b, c, by omega, e⟩
      · rintro ⟨i, a, b, c, d, e⟩; exact ⟨i, a, b, c, (lt i a).1 d, e⟩
    nodup := I.nodup, pos_o := I.pos_o
    pos_n := fun e h he => I.pos_n e (by have : e ≠ n := fun h => hl (h ▸ he); omega) he }

/-- What splitting one edge does to the pieces. -/
structure PieceStep (m : Mesh) (n : ℕ) (pc pc' : ℕ → ℕ → ℕ) (A B N : ℕ) : Prop where
  o : ∀ i t, i ≠ A → i ≠ B → pc' i t = pc i t
  A0 : pc' A 0 = N
  A1 : pc' A 1 = A
  A2 : pc' A 2 = N + 2
  A3 : pc' A 3 = N + 3
  B0 : pc' B 0 = B
  B1 : pc' B 1 = N + 1
  B2 : pc' B 2 = N + 4
  B3 : pc' B 3 = N + 5
  ok : ∀ i t, okPc m (n + 1) i t ↔ (okPc m n i t ∧ i ≠ A ∧ i ≠ B) ∨ (i = A ∧ t ≤ 3) ∨ (i = B ∧ (t = 0 ∨ t = 1 ∨ (¬ m.ext B ∧ (t = 2 ∨ t = 3))))

theorem pieceStep (hv : m.Valid) {n : ℕ} (pc : ℕ → ℕ → ℕ) (hl : m.heLive (2 * n)) (N : ℕ) :
    PieceStep m n pc (pcNew pc (2 * n) (2 * n + 1) N) (2 * n) (2 * n + 1) N := by
  have hlB : m.heLive (2 * n + 1) := by rw [← twin_two_mul]; exact hv.twin_live _ hl
  have xA : ¬ m.ext (2 * n) := hv.edge_int n hl
  have d : 2 * n + 1 ≠ 2 * n := by omega
  constructor
  · intro i t h1 h2; unfold pcNew; rw [if_neg h1, if_neg h2]
  all_goals try (unfold pcNew; simp; done)
  intro i t
  unfold okPc
  constructor
  · rintro ⟨h1, h2⟩
    by_cases c1 : i = 2 * n
    · right; left; refine ⟨c1, ?_⟩; rcases h2 with h | ⟨-, h | ⟨-, h⟩⟩ <;> omega
    by_cases c2 : i = 2 * n + 1
    · right; right; refine ⟨c2, ?_⟩; subst c2; tauto
    left
    have : i / 2 ≠ n := by omega
    have e : i / 2 < n + 1 ↔ i / 2 < n := by omega
    rw [e] at h2
    exact ⟨⟨h1, h2⟩, c1, c2⟩
  · rintro (⟨⟨h1, h2⟩, -, -⟩ | ⟨rfl, h⟩ | ⟨rfl, h⟩)
    · refine ⟨h1, ?_⟩
      rcases h2 with h | ⟨a, b⟩
      · exact .inl h
      · exact .inr ⟨by omega, b⟩
    · refine ⟨hl, ?_⟩
      by_cases c0 : t = 0
      · exact .inl c0
      refine .inr ⟨by omega, ?_⟩
      by_cases c1 : t = 1
      · exact .inl c1
      · exact .inr ⟨xA, by omega⟩
    · refine ⟨hlB, ?_⟩
      rcases h with h | h | h
      · exact .inl h
      · exact .inr ⟨by omega, .inl h⟩
      · exact .inr ⟨by omega, .inr h⟩

theorem LInv.step (hv : m.Valid) (ht : m.TriFaces) (hnl : m.NoLoops) {n : ℕ} (hn : n < m.nEFill) {pc : ℕ → ℕ → ℕ} {s : LoopSt P}
    (I : LInv m pos splitP n pc s) :
    (∃ s' pc', loopEdgeStep splitP s n = .ok s' ∧ LInv m pos splitP (n + 1) pc' s') ∨
      (loopEdgeStep splitP s n = .error .oom ∧ m.heLive (2 * n) ∧ s.m.nearLimit 3) := by
  have hlow : s.m.heLive (2 * n) ↔ m.heLive (2 * n) := by
    constructor
    · intro h
      obtain ⟨i, t, ok, e⟩ := (I.live _).1 h
      rw [e]; exact I.old i t ok (by rw [← e, hv.he_fill]; omega)
    · intro h
      exact (I.live _).2 ⟨_, 0, ⟨h, .inl rfl⟩, (I.un _ h (by omega)).symm⟩
  unfold loopEdgeStep eHalfedge
  by_cases hl : m.heLive (2 * n)
  swap
  · rw [if_pos (by rwa [hlow])]
    exact .inl ⟨s, pc, rfl, I.skip hv hl⟩
  have hls := hlow.2 hl
  have r : subRk m (n + 1) = subRk m n + 1 := by unfold subRk; rw [Nat.count_succ, if_pos hl]
  have r' : subIn m (n + 1) = subIn m n + if m.ext (2 * n + 1) then 1 else 2 := by rw [subIn, if_pos hl]
  have lB : m.heLive (2 * n + 1) := by rw [← twin_two_mul]; exact hv.twin_live _ hl
  have xA : ¬ m.ext (2 * n) := hv.edge_int n hl
  have okA : okPc m n (2 * n) 0 := ⟨hl, .inl rfl⟩
  have okB : okPc m n (2 * n + 1) 0 := ⟨lB, .inl rfl⟩
  have uA := I.un _ hl (by omega)
  have uB := I.un _ lB (by omega)
  have hlB : s.m.heLive (2 * n + 1) := (I.live _).2 ⟨_, _, okB, uB.symm⟩
  have xBs : s.m.ext (2 * n + 1) ↔ m.ext (2 * n + 1) := by have := I.ex _ _ okB; rwa [uB] at this
  have fAB : m.heFace (2 * n + 1) ≠ m.heFace (2 * n) := by
    have := sides_ne hv ht hnl hl xA; rwa [twin_two_mul] at this
  obtain ⟨c2, t2, c3, t3, k2, k3, g2, g3, nA1, nA2, nA3, fst3, nfst3⟩ := I.side hv ht hnl hl xA (by omega)
  have hfaces : s.m.heFace (2 * n) ≠ s.m.heFace (2 * n + 1) := by
    intro h
    rcases tri_mem I.valid hls nA3 hlB h.symm with e | e | e
    · omega
    · rw [nA1, ← uB] at e
      exact fAB (((I.inj _ _ _ _ okB k2 e).1 ▸ g2))
    · rw [nA2, ← uB] at e
      exact fAB (((I.inj _ _ _ _ okB k3 e).1 ▸ g3))
  rw [if_neg (by simpa using hls), if_neg (by simp [I.origE n le_rfl hn])]
  rcases splitTri_spec s.m I.valid n hls hfaces nA3 (by
    by_cases c : m.ext (2 * n + 1)
    · exact .inl (xBs.2 c)
    · obtain ⟨_, _, _, _, _, _, _, _, _, _, h, _⟩ := I.side hv ht hnl lB c (by omega)
      exact .inr h) with ⟨h, lim⟩ | ⟨m', h, S⟩
  · right; rw [h]; exact ⟨rfl, hl, lim⟩
  left
  rw [h]
  clear h
  have nAx : m.heNext (2 * n) ≠ 2 * n := hv.deg_two _ hl
  set A := 2 * n with hA
  set B := 2 * n + 1 with hB
  set N := s.m.nHeFill with hN
  have hNe : N = 2 * s.m.nEFill := I.valid.he_fill
  have hmN : m.nHeFill ≤ N := by rw [hN, I.heFill]; omega
  have PS := pieceStep hv pc hl N
  rw [← hA, ← hB] at PS
  generalize pcNew pc A B N = pc' at PS
  have twA : twin A = B := twin_two_mul n
  have twB : twin B = A := twin_two_mul_add n
  have half : ∀ c, c / 2 = n → c = A ∨ c = B := fun c h => by omega
  have hAn : A / 2 = n := by omega
  have hBn : B / 2 = n := by omega
  clear_value A B N
  have pl : ∀ {i t}, okPc m n i t → s.m.heLive (pc i t) := fun {i t} k => (I.live _).2 ⟨i, t, k, rfl⟩
  have ltN : ∀ {i t}, okPc m n i t → pc i t < N := fun {i t} k => by rw [hN]; exact (pl k).1
  have hp0 : ∀ i, i ≠ A → pc' i 0 = pc i 0 := fun i h => by
    by_cases c : i = B
    · subst c; rw [PS.B0, uB]
    · exact PS.o i 0 h c
  -- halfedges that keep their successor
  have frame : ∀ i t, okPc m n i t → pc i t ≠ A → pc i t ≠ s.m.heNext A → pc i t ≠ s.m.heNext (s.m.heNext A) → pc i t ≠ B →
      (¬ m.ext B → pc i t ≠ s.m.heNext B ∧ pc i t ≠ s.m.heNext (s.m.heNext B)) → m'.heNext (pc i t) = s.m.heNext (pc i t) :=
    fun i t k h1 h2 h3 h4 h5 => S.o _ (pl k) h1 h2 h3 h4 (fun h => h5 (by rwa [← xBs]))
  have nePc : ∀ {i t i' t'}, okPc m n i t → okPc m n i' t' → m.heFace i ≠ m.heFace i' → pc i t ≠ pc i' t' := fun k k' h e =>
    h (by rw [(I.inj _ _ _ _ k k' e).1])
  have notA : ∀ {i t}, okPc m n i t → m.heFace i ≠ m.heFace A → pc i t ≠ A ∧ pc i t ≠ s.m.heNext A ∧ pc i t ≠ s.m.heNext (s.m.heNext A) := by
    intro i t k h
    refine ⟨?_, ?_, ?_⟩
    · have := nePc k okA h; rwa [uA] at this
    · rw [nA1]; exact nePc k k2 (by rwa [g2])
    · rw [nA2]; exact nePc k k3 (by rwa [g3])
  have notB : ∀ {i t}, okPc m n i t → m.heFace i ≠ m.heFace B → pc i t ≠ B ∧
      (¬ m.ext B → pc i t ≠ s.m.heNext B ∧ pc i t ≠ s.m.heNext (s.m.heNext B)) := by
    intro i t k h
    refine ⟨?_, fun c => ?_⟩
    · have := nePc k okB h; rwa [uB] at this
    · obtain ⟨d2, u2, d3, u3, q2, q3, w2, w3, nB1, nB2, -⟩ := I.side hv ht hnl lB c hBn
      constructor
      · rw [nB1]; exact nePc k q2 (by rwa [w2])
      · rw [nB2]; exact nePc k q3 (by rwa [w3])
  have extFace : ∀ {x y}, m.ext x → ¬ m.ext y → m.heFace x ≠ m.heFace y := fun {x y} h1 h2 e => by
    unfold ext at h1 h2; rw [e] at h1; exact h2 h1
  -- the tables
  have tab : ∀ i, m.heLive i → ¬ m.ext i → sideFirst m i → Tab (n + 1) pc' m'.heNext i (m.heNext i) (m.heNext (m.heNext i)) := by
    intro i li xi hf
    have T := I.tab i li xi hf
    have l1 := hv.next_live _ li
    have l2 := hv.next_live _ l1
    have f1 := hv.face_next li
    have f2 := (hv.face_next l1).trans f1
    obtain ⟨-, -, hjk⟩ := tri_halves hv ht hnl li xi
    have fc : ∀ c, c = i ∨ c = m.heNext i ∨ c = m.heNext (m.heNext i) → m.heLive c ∧ m.heFace c = m.heFace i ∧ ¬ m.ext c := by
      rintro c (rfl | rfl | rfl)
      · exact ⟨li, rfl, xi⟩
      · exact ⟨l1, f1, by rwa [ext_next' hv li]⟩
      · exact ⟨l2, f2, by rwa [ext_next' hv l1, ext_next' hv li]⟩
    have okc : ∀ c, c = i ∨ c = m.heNext i ∨ c = m.heNext (m.heNext i) → ∀ t, t ≤ 3 → (t = 0 ∨ c / 2 < n) → okPc m n c t :=
      fun c hc t h3 h4 => okPc_of (fc c hc).1 (fc c hc).2.2 h3 h4
    by_cases cA : m.heFace A = m.heFace i
    · have mem := tri_mem hv li (ht i li xi) hl cA
      obtain ⟨n1, n2, n3⟩ := T.around_next hf.1 hf.2 mem hAn
      obtain ⟨m1, m2, q1, q2, o1, o2⟩ := around_ok hf.1 hf.2 hAn mem
      rw [uA] at n1 n3
      have n2' := (congrArg s.m.heNext n1).trans n2
      refine T.step hf.1 hf.2 hjk mem hAn ?_ ?_ ?_ ?_ ?_ ?_ ?_ ?_
      · intro c hc hcA t
        exact PS.o c t hcA (by rintro rfl; exact fAB ((fc _ hc).2.1.trans cA.symm))
      · intro c hc t h3 h4 e1 e2 e3
        have k := okc c hc t h3 h4
        have fB : m.heFace c ≠ m.heFace B := by rw [(fc c hc).2.1, ← cA]; exact fAB.symm
        refine frame c t k ?_ ?_ ?_ (notB k fB).1 (notB k fB).2
        · intro e; rw [← uA] at e; obtain ⟨a, b⟩ := I.inj _ _ _ _ k okA e; exact e1 (by rw [a, b])
        · rw [n1]; intro e; obtain ⟨a, b⟩ := I.inj _ _ _ _ k (okc _ m1 _ q1 o1) e; exact e2 (by rw [a, b])
        · rw [n2']; intro e; obtain ⟨a, b⟩ := I.inj _ _ _ _ k (okc _ m2 _ q2 o2) e; exact e3 (by rw [a, b])
      · rw [PS.A1, ← n1]; exact S.a1
      · rw [PS.A3, ← n1]; exact S.a2
      · rw [PS.A3, PS.A1]; exact S.a3
      · rw [PS.A0, PS.A2]; exact S.a4
      · rw [PS.A2, ← n2']; exact S.a5
      · rw [PS.A0, ← n2']; exact S.a6
    by_cases cB : m.heFace B = m.heFace i
    · have mem := tri_mem hv li (ht i li xi) lB cB
      have xB : ¬ m.ext B := by unfold ext at xi ⊢; rwa [cB]
      have xB' : ¬ s.m.ext B := by rwa [xBs]
      obtain ⟨n1, n2, n3⟩ := T.around_next hf.1 hf.2 mem hBn
      obtain ⟨m1, m2, q1, q2, o1, o2⟩ := around_ok hf.1 hf.2 hBn mem
      rw [uB] at n1 n3
      have n2' := (congrArg s.m.heNext n1).trans n2
      refine T.step hf.1 hf.2 hjk mem hBn ?_ ?_ ?_ ?_ ?_ ?_ ?_ ?_
      · intro c hc hcB t
        exact PS.o c t (by rintro rfl; exact cA (fc _ hc).2.1) hcB
      · intro c hc t h3 h4 e1 e2 e3
        have k := okc c hc t h3 h4
        have fA : m.heFace c ≠ m.heFace A := by rw [(fc c hc).2.1]; exact fun e => cA e.symm
        refine frame c t k (notA k fA).1 (notA k fA).2.1 (notA k fA).2.2 ?_ (fun _ => ⟨?_, ?_⟩)
        · intro e; rw [← uB] at e; obtain ⟨a, b⟩ := I.inj _ _ _ _ k okB e; exact e1 (by rw [a, b])
        · rw [n1]; intro e; obtain ⟨a, b⟩ := I.inj _ _ _ _ k (okc _ m1 _ q1 o1) e; exact e2 (by rw [a, b])
        · rw [n2']; intro e; obtain ⟨a, b⟩ := I.inj _ _ _ _ k (okc _ m2 _ q2 o2) e; exact e3 (by rw [a, b])
      · rw [PS.B1, ← n1]; exact S.b1
      · rw [PS.B3, ← n1]; exact S.b2 xB'
      · rw [PS.B3, PS.B1]; exact S.b3 xB'
      · rw [PS.B0, PS.B2]; exact S.b4 xB'
      · rw [PS.B2, ← n2']; exact S.b5 xB'
      · rw [PS.B0, ← n2']; exact S.b6 xB'
    · have ne : ∀ c, c = i ∨ c = m.heNext i ∨ c = m.heNext (m.heNext i) → c ≠ A ∧ c ≠ B := fun c hc =>
        ⟨by rintro rfl; exact cA (fc _ hc).2.1, by rintro rfl; exact cB (fc _ hc).2.1⟩
      have nn : ∀ c, c = i ∨ c = m.heNext i ∨ c = m.heNext (m.heNext i) → c / 2 ≠ n := fun c hc h => by
        rcases half c h with g | g
        · exact (ne c hc).1 g
        · exact (ne c hc).2 g
      refine T.keep (nn _ (.inl rfl)) (nn _ (.inr (.inl rfl))) (nn _ (.inr (.inr rfl))) ?_ ?_ hf.1 hf.2
      · intro c hc t; exact PS.o c t (ne c hc).1 (ne c hc).2
      · intro c hc t h3 h4
        have k := okc c hc t h3 h4
        have fA : m.heFace c ≠ m.heFace A := by rw [(fc c hc).2.1]; exact fun e => cA e.symm
        have fB : m.heFace c ≠ m.heFace B := by rw [(fc c hc).2.1]; exact fun e => cB e.symm
        exact frame c t k (notA k fA).1 (notA k fA).2.1 (notA k fA).2.2 (notB k fB).1 (notB k fB).2
  -- the pieces
  have inj : ∀ i t i' t', okPc m (n + 1) i t → okPc m (n + 1) i' t' → pc' i t = pc' i' t' → i = i' ∧ t = t' := by
    have vA : ∀ t, t ≤ 3 → (t = 1 → pc' A t = A) ∧ (t ≠ 1 → pc' A t = N + t) := fun t h => by
      have : t = 0 ∨ t = 1 ∨ t = 2 ∨ t = 3 := by omega
      rcases this with rfl | rfl | rfl | rfl
      · exact ⟨fun h => by omega, fun _ => PS.A0⟩
      · exact ⟨fun _ => PS.A1, fun h => by omega⟩
      · exact ⟨fun h => by omega, fun _ => PS.A2⟩
      · exact ⟨fun h => by omega, fun _ => PS.A3⟩
    have vB : ∀ t, t ≤ 3 → (t = 0 → pc' B t = B) ∧ (t = 1 → pc' B t = N + 1) ∧ (2 ≤ t → pc' B t = N + 2 + t) := fun t h => by
      have : t = 0 ∨ t = 1 ∨ t = 2 ∨ t = 3 := by omega
      rcases this with rfl | rfl | rfl | rfl
      · exact ⟨fun _ => PS.B0, fun h => by omega, fun h => by omega⟩
      · exact ⟨fun h => by omega, fun _ => PS.B1, fun h => by omega⟩
      · exact ⟨fun h => by omega, fun h => by omega, fun _ => PS.B2⟩
      · exact ⟨fun h => by omega, fun h => by omega, fun _ => PS.B3⟩
    have lA : A < N := by have := ltN okA; rwa [uA] at this
    have lBN : B < N := by have := ltN okB; rwa [uB] at this
    have nAB : A ≠ B := by rw [← twA]; exact (twin_ne A).symm
    have oA : ∀ {i t t'}, okPc m n i t → i ≠ A → t' ≤ 3 → pc i t ≠ pc' A t' := fun {i t t'} k h ht' e => by
      by_cases c : t' = 1
      · rw [(vA t' ht').1 c, ← uA] at e; exact h (I.inj _ _ _ _ k okA e).1
      · rw [(vA t' ht').2 c] at e; have := ltN k; omega
    have oB : ∀ {i t t'}, okPc m n i t → i ≠ B → t' ≤ 3 → pc i t ≠ pc' B t' := fun {i t t'} k h ht' e => by
      have := ltN k
      by_cases c : t' = 0
      · rw [(vB t' ht').1 c, ← uB] at e; exact h (I.inj _ _ _ _ k okB e).1
      by_cases c1 : t' = 1
      · rw [(vB t' ht').2.1 c1] at e; omega
      · rw [(vB t' ht').2.2 (by omega)] at e; omega
    have AB : ∀ {t t'}, t ≤ 3 → t' ≤ 3 → pc' A t ≠ pc' B t' := fun {t t'} h h' e => by
      obtain ⟨a1, a2⟩ := vA t h
      obtain ⟨b1, b2, b3⟩ := vB t' h'
      by_cases c : t = 1 <;> by_cases c0 : t' = 0 <;> by_cases c1 : t' = 1
      all_goals first
        | omega
        | (have := a1 c; have := b1 c0; omega)
        | (have := a1 c; have := b2 c1; omega)
        | (have := a1 c; have := b3 (by omega); omega)
        | (have := a2 c; have := b1 c0; omega)
        | (have := a2 c; have := b2 c1; omega)
        | (have := a2 c; have := b3 (by omega); omega)
    intro i t i' t' k k' e
    rcases (PS.ok i t).1 k with ⟨q, h1, h2⟩ | ⟨rfl, h⟩ | ⟨rfl, h⟩ <;> rcases (PS.ok i' t').1 k' with ⟨q', h1', h2'⟩ | ⟨rfl, h'⟩ | ⟨rfl, h'⟩
    · rw [PS.o _ _ h1 h2, PS.o _ _ h1' h2'] at e; exact I.inj _ _ _ _ q q' e
    · rw [PS.o _ _ h1 h2] at e; exact (oA q h1 h' e).elim
    · rw [PS.o _ _ h1 h2] at e; exact (oB q h2 (by omega) e).elim
    · rw [PS.o _ _ h1' h2'] at e; exact (oA q' h1' h e.symm).elim
    · refine ⟨rfl, ?_⟩
      obtain ⟨a1, a2⟩ := vA t h
      obtain ⟨b1, b2⟩ := vA t' h'
      by_cases c : t = 1 <;> by_cases c' : t' = 1
      · omega
      · have := a1 c; have := b2 c'; omega
      · have := a2 c; have := b1 c'; omega
      · have := a2 c; have := b2 c'; omega
    · exact (AB h (by omega) e).elim
    · rw [PS.o _ _ h1' h2'] at e; exact (oB q' h2' (by omega) e.symm).elim
    · exact (AB h' (by omega) e.symm).elim
    · refine ⟨rfl, ?_⟩
      obtain ⟨a1, a2, a3⟩ := vB t (by omega)
      obtain ⟨b1, b2, b3⟩ := vB t' (by omega)
      by_cases c0 : t = 0 <;> by_cases c1 : t = 1 <;> by_cases d0 : t' = 0 <;> by_cases d1 : t' = 1
      all_goals first
        | omega
        | (have := a1 c0; have := b2 d1; omega)
        | (have := a1 c0; have := b3 (by omega); omega)
        | (have := a2 c1; have := b1 d0; omega)
        | (have := a2 c1; have := b3 (by omega); omega)
        | (have := a3 (by omega); have := b1 d0; omega)
        | (have := a3 (by omega); have := b2 d1; omega)
        | (have := a3 (by omega); have := b3 (by omega); omega)
  have okA' : ∀ t, t ≤ 3 → okPc m (n + 1) A t := fun t h => (PS.ok _ _).2 (.inr (.inl ⟨rfl, h⟩))
  have okB' : ∀ t, (t = 0 ∨ t = 1 ∨ (¬ m.ext B ∧ (t = 2 ∨ t = 3))) → okPc m (n + 1) B t := fun t h => (PS.ok _ _).2 (.inr (.inr ⟨rfl, h⟩))
  have t0 : ∀ {i t}, okPc m n i t → i / 2 = n → t = 0 := fun {i t} k h => by
    rcases k.2 with g | g
    · exact g
    · omega
  have live : ∀ x, m'.heLive x ↔ ∃ i t, okPc m (n + 1) i t ∧ x = pc' i t := by
    intro x
    rw [S.live, I.live, xBs]
    constructor
    · rintro (⟨i, t, k, rfl⟩ | h | ⟨h1, h2⟩)
      · by_cases c : i = A
        · subst c; have := t0 k hAn; subst this; exact ⟨_, 1, okA' 1 (by omega), by rw [PS.A1, uA]⟩
        by_cases c' : i = B
        · subst c'; have := t0 k hBn; subst this; exact ⟨_, 0, okB' 0 (.inl rfl), by rw [PS.B0, uB]⟩
        · exact ⟨i, t, (PS.ok _ _).2 (.inl ⟨k, c, c'⟩), (PS.o _ _ c c').symm⟩
      · have : x = N ∨ x = N + 1 ∨ x = N + 2 ∨ x = N + 3 := by omega
        rcases this with rfl | rfl | rfl | rfl
        · exact ⟨_, 0, okA' 0 (by omega), PS.A0.symm⟩
        · exact ⟨_, 1, okB' 1 (.inr (.inl rfl)), PS.B1.symm⟩
        · exact ⟨_, 2, okA' 2 (by omega), PS.A2.symm⟩
        · exact ⟨_, 3, okA' 3 (by omega), PS.A3.symm⟩
      · rcases h2 with rfl | rfl
        · exact ⟨_, 2, okB' 2 (.inr (.inr ⟨h1, .inl rfl⟩)), PS.B2.symm⟩
        · exact ⟨_, 3, okB' 3 (.inr (.inr ⟨h1, .inr rfl⟩)), PS.B3.symm⟩
    · rintro ⟨i, t, k, rfl⟩
      rcases (PS.ok i t).1 k with ⟨q, h1, h2⟩ | ⟨rfl, h⟩ | ⟨rfl, h⟩
      · exact .inl ⟨i, t, q, PS.o _ _ h1 h2⟩
      · have : t = 0 ∨ t = 1 ∨ t = 2 ∨ t = 3 := by omega
        rcases this with rfl | rfl | rfl | rfl
        · right; left; rw [PS.A0]; omega
        · exact .inl ⟨_, 0, okA, by rw [PS.A1, uA]⟩
        · right; left; rw [PS.A2]; omega
        · right; left; rw [PS.A3]; omega
      · rcases h with rfl | rfl | ⟨hx, rfl | rfl⟩
        · exact .inl ⟨_, 0, okB, by rw [PS.B0, uB]⟩
        · right; left; rw [PS.B1]; omega
        · right; right; exact ⟨hx, .inl PS.B2⟩
        · right; right; exact ⟨hx, .inr PS.B3⟩
  -- the new vertex
  have vlt : ∀ {x}, s.m.heLive x → s.m.heVertex x < s.m.nVFill := fun h => (I.valid.vertex_live _ h).1
  have sl1 := I.valid.next_live _ hls
  have sl2 := I.valid.next_live _ sl1
  have sA1 : s.m.heNext A ≠ A := I.valid.deg_two _ hls
  have sA2 : s.m.heNext (s.m.heNext A) ≠ A := fun e => sA1 (by rw [e] at nA3; exact nA3)
  have slB1 := I.valid.next_live _ hlB
  have slB2 := I.valid.next_live _ slB1
  have fA1 : s.m.heFace (s.m.heNext B) = s.m.heFace B := I.valid.face_next hlB
  have sB2 : s.m.heNext (s.m.heNext B) ≠ A := fun e => by
    have := I.valid.face_next slB1; rw [e, fA1] at this; exact hfaces this
  have lA' : m'.heLive A := (live _).2 ⟨_, 1, okA' 1 (by omega), PS.A1.symm⟩
  have tN : ∀ k, twin (N + 2 * k) = N + 2 * k + 1 := fun k => by rw [show N + 2 * k = 2 * (s.m.nEFill + k) by omega, twin_two_mul]
  have lN2 : m'.heLive (N + 2) := (live _).2 ⟨_, 2, okA' 2 (by omega), PS.A2.symm⟩
  have v3 : m'.heVertex (N + 3) = s.m.heVertex (s.m.heNext (s.m.heNext A)) := by
    have := S.valid.vertex_next lN2
    rw [S.a5, S.vo _ sl2 sA2] at this
    rw [this]; congr 1; have := tN 1; rw [show N + 3 = N + 2 * 1 + 1 from rfl, ← this]
  have v5 : ¬ m.ext B → m'.heLive (N + 4) ∧ m'.heVertex (N + 5) = s.m.heVertex (s.m.heNext (s.m.heNext B)) := fun hx => by
    have lN4 : m'.heLive (N + 4) := (live _).2 ⟨_, 2, okB' 2 (.inr (.inr ⟨hx, .inl rfl⟩)), PS.B2.symm⟩
    refine ⟨lN4, ?_⟩
    have := S.valid.vertex_next lN4
    rw [S.b5 (by rwa [xBs]), S.vo _ slB2 sB2] at this
    rw [this]; congr 1; have := tN 2; rw [show N + 5 = N + 2 * 2 + 1 from rfl, ← this]
  have out : ∀ x, m'.heLive x ∧ m'.heVertex x = s.m.nVFill ↔ x = A ∨ x = N + 1 ∨ x = N + 2 ∨ (¬ m.ext B ∧ x = N + 4) := by
    intro x
    constructor
    · rintro ⟨lx, e⟩
      by_cases c : x = A
      · exact .inl c
      rcases (S.live x).1 lx with h | h | ⟨h1, h2⟩
      · rw [S.vo x h c] at e; have := vlt h; omega
      · have : x = N ∨ x = N + 1 ∨ x = N + 2 ∨ x = N + 3 := by omega
        rcases this with rfl | h | h | rfl
        · rw [S.v0] at e; have := vlt hls; omega
        · exact .inr (.inl h)
        · exact .inr (.inr (.inl h))
        · rw [v3] at e; have := vlt sl2; omega
      · rw [xBs] at h1
        rcases h2 with h | rfl
        · exact .inr (.inr (.inr ⟨h1, h⟩))
        · rw [(v5 h1).2] at e; have := vlt slB2; omega
    · rintro (rfl | rfl | rfl | ⟨hx, rfl⟩)
      · exact ⟨lA', S.vA⟩
      · exact ⟨(live _).2 ⟨_, 1, okB' 1 (.inr (.inl rfl)), PS.B1.symm⟩, S.v1⟩
      · exact ⟨lN2, S.v2⟩
      · exact ⟨(v5 hx).1, S.v4 (by rwa [xBs])⟩
  obtain ⟨l, -, nd, lm, -, -, -, le, -⟩ := C49_vertex_outgoing m' S.valid s.m.nVFill (by
    have := S.valid.vertex_live _ lA'; rwa [S.vA] at this)
  have lm' : ∀ x, x ∈ l ↔ x = A ∨ x = N + 1 ∨ x = N + 2 ∨ (¬ m.ext B ∧ x = N + 4) := fun x => by rw [lm, out]
  have lAN : A < N := by have := ltN okA; rwa [uA] at this
  have esnd : (l.map (fun i => i / 2)).Nodup := by
    refine List.Nodup.map_on ?_ nd
    intro x hx y hy e
    rw [lm'] at hx hy
    have := hA
    rcases hx with rfl | rfl | rfl | ⟨-, rfl⟩ <;> rcases hy with rfl | rfl | rfl | ⟨-, rfl⟩ <;> omega
  have eA : eHalfedge n = A := hA.symm
  have evA : s.m.heVertex A = m.heVertex A := by rw [← uA, I.v0 _ hl, uA]
  have evB : s.m.heVertex B = m.heVertex B := by rw [← uB, I.v0 _ lB, uB]
  have tipA : s.m.tip A = m.heVertex B := by unfold tip; rw [I.valid.vertex_next hls, twA, evB]
  simp only [bind, Except.bind, S.vA, le, ← hA, tipA, evA]
  obtain ⟨f1, f2, f3, f4, f5⟩ := loopMark_fold (P := P) m' s.m.nVFill (m.heVertex B) (m.heVertex A) (l.map fun i => i / 2)
    { s with m := m', origV := Function.update s.origV s.m.nVFill false, pos := Function.update s.pos s.m.nVFill (splitP n) }
  generalize List.foldl (loopMark m' s.m.nVFill (m.heVertex B) (m.heVertex A)) _ _ = s' at *
  simp only at f1 f2 f3 f4 f5
  refine ⟨s', pc', rfl, ?_⟩
  have vf := I.vFill
  -- which edges are to be flipped
  have flip : ∀ x, x ∈ (l.map fun i => i / 2).filter (fun e => Function.update s.origV s.m.nVFill false (m'.otherVertex e s.m.nVFill) &&
      m'.otherVertex e s.m.nVFill != m.heVertex B && m'.otherVertex e s.m.nVFill != m.heVertex A) ↔
      (sideFirst m A ∧ x = (N + 2) / 2) ∨ (¬ m.ext B ∧ sideFirst m B ∧ x = (N + 4) / 2) := by
    have oA : m'.otherVertex n s.m.nVFill = m.heVertex B := by
      unfold otherVertex; rw [eA, if_pos S.vA]; unfold tip; rw [S.a1, S.vo _ sl1 sA1]; exact tipA
    have oN : m'.otherVertex (N / 2) s.m.nVFill = m.heVertex A := by
      have : eHalfedge (N / 2) = N := by unfold eHalfedge; omega
      unfold otherVertex; rw [this, S.v0, if_neg (by have := vlt hls; omega), evA]
    have o2 : m'.otherVertex ((N + 2) / 2) s.m.nVFill = s.m.heVertex (s.m.heNext (s.m.heNext A)) := by
      have : eHalfedge ((N + 2) / 2) = N + 2 := by unfold eHalfedge; omega
      unfold otherVertex; rw [this, if_pos S.v2]; unfold tip; rw [S.a5, S.vo _ sl2 sA2]
    have o4 : ¬ m.ext B → m'.otherVertex ((N + 4) / 2) s.m.nVFill = s.m.heVertex (s.m.heNext (s.m.heNext B)) := fun hx => by
      have : eHalfedge ((N + 4) / 2) = N + 4 := by unfold eHalfedge; omega
      have hx' : ¬ s.m.ext B := by rwa [xBs]
      unfold otherVertex; rw [this, if_pos (S.v4 hx')]; unfold tip; rw [S.b5 hx', S.vo _ slB2 sB2]
    obtain ⟨pA1, pA2⟩ := I.opposite hv ht hnl hl xA hAn
    rw [twA] at pA1
    have og : ∀ v, v ≠ s.m.nVFill → Function.update s.origV s.m.nVFill false v = !decide (m.nVFill ≤ v ∧ v < m.nVFill + subRk m n) := fun v h => by
      rw [Function.update_of_ne h, I.origV]
    intro x
    rw [List.mem_filter, List.mem_map]
    constructor
    · rintro ⟨⟨i, hi, rfl⟩, c⟩
      rw [lm'] at hi
      rcases hi with rfl | rfl | rfl | ⟨hx, rfl⟩
      · rw [hAn, oA] at c; simp at c
      · rw [show (N + 1) / 2 = N / 2 by omega, oN] at c; simp at c
      · left
        refine ⟨?_, rfl⟩
        by_contra h
        obtain ⟨a, b⟩ := pA2 h
        rw [o2, og _ (by omega)] at c
        simp [a, b] at c
      · right
        refine ⟨hx, ?_, rfl⟩
        by_contra h
        obtain ⟨a, b⟩ := (I.opposite hv ht hnl lB hx hBn).2 h
        rw [o4 hx, og _ (by omega)] at c
        simp [a, b] at c
    · rintro (⟨h, rfl⟩ | ⟨hx, h, rfl⟩)
      · refine ⟨⟨N + 2, (lm' _).2 (.inr (.inr (.inl rfl))), rfl⟩, ?_⟩
        obtain ⟨a, b, c⟩ := pA1 h
        rw [o2, og _ (by omega)]
        simp [b, c]; omega
      · refine ⟨⟨N + 4, (lm' _).2 (.inr (.inr (.inr ⟨hx, rfl⟩))), rfl⟩, ?_⟩
        obtain ⟨a, b, c⟩ := (I.opposite hv ht hnl lB hx hBn).1 h
        rw [twB] at c
        rw [o4 hx, og _ (by omega)]
        simp [b, c]; omega
  obtain ⟨s1, s2, s3, s4, s5⟩ := s'
  simp only at f1 f2 f3 f4 f5
  subst f1 f2 f3 f5
  have nAB : A ≠ B := by rw [← twA]; exact (twin_ne A).symm
  have lt' : ∀ {i}, i ≠ A → i ≠ B → (i / 2 < n + 1 ↔ i / 2 < n) := fun {i} h1 h2 => by
    have : i / 2 ≠ n := fun h => (half i h).elim h1 h2
    omega
  have neA : ∀ {i t}, okPc m n i t → i ≠ A → pc i t ≠ A := fun {i t} k h e => by
    rw [← uA] at e; exact h (I.inj _ _ _ _ k okA e).1
  have twne : ∀ {i}, i ≠ A → i ≠ B → twin i ≠ A ∧ twin i ≠ B := fun {i} h1 h2 =>
    ⟨fun e => h2 (by rw [← twA, ← e, twin_twin]), fun e => h1 (by rw [← twB, ← e, twin_twin])⟩
  have xframe : ∀ {i t}, okPc m n i t → m.ext i → i ≠ B → s1.heNext (pc i t) = s.m.heNext (pc i t) := fun {i t} k hx h => by
    obtain ⟨a, b, c⟩ := notA k (extFace hx xA)
    refine frame i t k a b c (fun e => ?_) (fun hB' => (notB k (extFace hx hB')).2 hB')
    rw [← uB] at e; exact h (I.inj _ _ _ _ k okB e).1
  have extA : ∀ {i}, m.ext i → i ≠ A := fun {i} hx e => xA (e ▸ hx)
  exact {
    valid := S.valid
    vFill := by rw [r]; simp only; rw [S.vFill]; omega
    heFill := by rw [r, r']; simp only; rw [S.heFill, hN, I.heFill]; simp only [xBs]; split_ifs <;> omega
    fFill := by rw [r']; simp only; rw [S.fFill, I.fFill]; simp only [xBs]; split_ifs <;> omega
    c_v := by rw [r]; simp only; rw [S.c_v, I.c_v]; omega
    c_e := by rw [r, r']; simp only; rw [S.c_e, I.c_e]; simp only [xBs]; split_ifs <;> omega
    c_f := by rw [r']; simp only; rw [S.c_f, I.c_f]; simp only [xBs]; split_ifs <;> omega
    c_bl := S.c_bl.trans I.c_bl
    live := live, inj := inj
    un := fun i hi h => by
      have h1 : i ≠ A := by rintro rfl; omega
      rw [hp0 i h1]; exact I.un i hi (by omega)
    old := fun i t k h => by
      rcases (PS.ok i t).1 k with ⟨q, h1, h2⟩ | ⟨rfl, g⟩ | ⟨rfl, g⟩
      · rw [PS.o _ _ h1 h2] at h ⊢; exact I.old i t q h
      · have : t = 0 ∨ t = 1 ∨ t = 2 ∨ t = 3 := by omega
        rcases this with rfl | rfl | rfl | rfl
        · rw [PS.A0] at h; omega
        · rw [PS.A1]; exact hl
        · rw [PS.A2] at h; omega
        · rw [PS.A3] at h; omega
      · rcases g with rfl | rfl | ⟨hx, rfl | rfl⟩
        · rw [PS.B0]; exact lB
        · rw [PS.B1] at h; omega
        · rw [PS.B2] at h; omega
        · rw [PS.B3] at h; omega
    tw1 := fun i hi h => by
      by_cases c : i = A
      · subst c; rw [PS.A0, twA, PS.B1]; have := tN 0; simpa using this
      by_cases c' : i = B
      · subst c'; rw [PS.B0, twB, PS.A1]
      rw [PS.o _ _ c c', PS.o _ _ (twne c c').1 (twne c c').2]; exact I.tw1 i hi ((lt' c c').1 h)
    tw2 := fun i hi hx h => by
      by_cases c : i = A
      · subst c; rw [PS.A2, PS.A3]; omega
      by_cases c' : i = B
      · subst c'; rw [PS.B2, PS.B3]; omega
      rw [PS.o _ _ c c', PS.o _ _ c c']; exact I.tw2 i hi hx ((lt' c c').1 h)
    tab := tab
    x1 := fun i hi hx h => by
      have nx : m.ext (m.heNext i) := (ext_next' hv hi).2 hx
      simp only
      by_cases c' : i = B
      · subst c'
        rw [PS.B0, PS.B1, hp0 _ (extA nx), ← I.x0 _ hi hx (by omega), uB]
        exact ⟨S.bx (xBs.2 hx), S.b1⟩
      have lt := (lt' (extA hx) c').1 h
      rw [PS.o _ _ (extA hx) c', PS.o _ _ (extA hx) c', hp0 _ (extA nx), xframe ⟨hi, .inl rfl⟩ hx c', xframe ⟨hi, .inr ⟨lt, .inl rfl⟩⟩ hx c']
      exact I.x1 i hi hx lt
    x0 := fun i hi hx h => by
      have nx : m.ext (m.heNext i) := (ext_next' hv hi).2 hx
      have c' : i ≠ B := by rintro rfl; omega
      simp only
      rw [PS.o _ _ (extA hx) c', hp0 _ (extA nx), xframe ⟨hi, .inl rfl⟩ hx c']
      exact I.x0 i hi hx (by omega)
    v0 := fun i hi => by
      simp only
      by_cases c : i = A
      · subst c; rw [PS.A0, S.v0, evA]
      · have k : okPc m n i 0 := ⟨hi, .inl rfl⟩
        rw [hp0 i c, S.vo _ (pl k) (neA k c), I.v0 i hi]
    v1 := fun i hi h => by
      simp only
      by_cases c : i = A
      · subst c; rw [PS.A1, S.vA, hAn, vf]
      by_cases c' : i = B
      · subst c'; rw [PS.B1, S.v1, hBn, vf]
      have lt := (lt' c c').1 h
      have k : okPc m n i 1 := ⟨hi, .inr ⟨lt, .inl rfl⟩⟩
      rw [PS.o _ _ c c', S.vo _ (pl k) (neA k c), I.v1 i hi lt]
    v2 := fun i hi hx h => by
      simp only
      by_cases c : i = A
      · subst c; rw [PS.A2, S.v2, hAn, vf]
      by_cases c' : i = B
      · subst c'; rw [PS.B2, S.v4 (by rwa [xBs]), hBn, vf]
      have lt := (lt' c c').1 h
      have k : okPc m n i 2 := ⟨hi, .inr ⟨lt, .inr ⟨hx, .inl rfl⟩⟩⟩
      rw [PS.o _ _ c c', S.vo _ (pl k) (neA k c), I.v2 i hi hx lt]
    ex := fun i t k => by
      simp only
      rcases (PS.ok i t).1 k with ⟨q, h1, h2⟩ | ⟨rfl, g⟩ | ⟨rfl, g⟩
      · rw [PS.o _ _ h1 h2, S.eo _ (pl q)]; exact I.ex i t q
      · have : t = 0 ∨ t = 1 ∨ t = 2 ∨ t = 3 := by omega
        rcases this with rfl | rfl | rfl | rfl
        · rw [PS.A0]; exact iff_of_false S.e0 xA
        · rw [PS.A1, S.eo _ hls]; have := I.ex _ _ okA; rwa [uA] at this
        · rw [PS.A2]; exact iff_of_false S.e2.1 xA
        · rw [PS.A3]; exact iff_of_false S.e2.2 xA
      · rcases g with rfl | rfl | ⟨hx, rfl | rfl⟩
        · rw [PS.B0, S.eo _ hlB, xBs]
        · rw [PS.B1, S.e1, xBs]
        · rw [PS.B2]; exact iff_of_false (S.e4 (by rwa [xBs])).1 hx
        · rw [PS.B3]; exact iff_of_false (S.e4 (by rwa [xBs])).2 hx
    origV := fun v => by
      simp only
      rw [r]
      by_cases c : v = s.m.nVFill
      · subst c; rw [Function.update_self, vf]; simp
      · rw [Function.update_of_ne c, I.origV]; congr 1; rw [decide_eq_decide]; omega
    origE := fun e h1 h2 => by
      simp only
      rw [f4 e, I.origE e (by omega) h2]
      rw [List.mem_map]
      rintro ⟨x, hx, rfl⟩
      rw [lm'] at hx
      have := hv.he_fill
      rcases hx with rfl | rfl | rfl | ⟨-, rfl⟩ <;> omega
    flips := fun x => by
      simp only
      rw [List.mem_append, flip, I.flips]
      constructor
      · rintro (⟨i, a, b, c, d, e⟩ | ⟨h, rfl⟩ | ⟨hx, h, rfl⟩)
        · have h1 : i ≠ A := by rintro rfl; omega
          have h2 : i ≠ B := by rintro rfl; omega
          exact ⟨i, a, b, c, by omega, by rw [PS.o _ _ h1 h2]; exact e⟩
        · exact ⟨A, hl, xA, h, by omega, by rw [PS.A2]⟩
        · exact ⟨B, lB, hx, h, by omega, by rw [PS.B2]⟩
      · rintro ⟨i, a, b, c, d, e⟩
        by_cases c1 : i = A
        · subst c1; rw [PS.A2] at e; exact .inr (.inl ⟨c, e⟩)
        by_cases c2 : i = B
        · subst c2; rw [PS.B2] at e; exact .inr (.inr ⟨b, c, e⟩)
        rw [PS.o _ _ c1 c2] at e
        exact .inl ⟨i, a, b, c, (lt' c1 c2).1 d, e⟩
    nodup := by
      simp only
      refine List.Nodup.append I.nodup (esnd.filter _) ?_
      intro x hx hx'
      rw [flip] at hx'
      obtain ⟨i, a, b, c, d, rfl⟩ := (I.flips x).1 hx
      have := ltN (i := i) (t := 2) ⟨a, .inr ⟨d, .inr ⟨b, .inl rfl⟩⟩⟩
      rcases hx' with ⟨-, h⟩ | ⟨-, -, h⟩ <;> omega
    pos_o := fun v h => by simp only; rw [Function.update_of_ne (by omega), I.pos_o v h]
    pos_n := fun e h he => by
      simp only
      by_cases c : e = n
      · subst c; rw [← vf, Function.update_self]
      · have : subRk m e < subRk m n := Nat.count_strict_mono (p := fun e => m.heLive (2 * e)) he (by omega)
        rw [Function.update_of_ne (by omega), I.pos_n e (by omega) he] }

/-- The loop over all edges. -/
theorem loopSplit_ok (hv : m.Valid) (ht : m.TriFaces) (hnl : m.NoLoops) :
    (∃ s pc, loopSplit splitP ⟨m, pos, fun _ => true, fun _ => true, []⟩ = .ok s ∧ LInv m pos splitP m.nEFill pc s) ∨
      (loopSplit splitP ⟨m, pos, fun _ => true, fun _ => true, []⟩ = .error .oom ∧ m.nearLimit (3 * subRk m m.nEFill)) := by
  unfold loopSplit
  rcases foldlM_inv_err (l := List.range m.nEFill) (f := loopEdgeStep splitP) (fun p s => ∃ pc, LInv m pos splitP p.length pc s)
    (fun e => e = .oom ∧ m.nearLimit (3 * subRk m m.nEFill)) (s0 := ⟨m, pos, fun _ => true, fun _ => true, []⟩)
    ⟨_, LInv.zero hv ht⟩ (by
      rintro p x q s hl ⟨pc, I⟩
      have hlen := congrArg List.length hl
      simp at hlen
      have hx : x = p.length := by
        have h1 := congrArg (fun l => l[p.length]?) hl
        simp [List.getElem?_range (show p.length < m.nEFill by omega)] at h1
        exact h1.symm
      subst hx
      rcases I.step hv ht hnl (by omega) with ⟨s', pc', e, I'⟩ | ⟨e, hl', lim⟩
      · exact .inl ⟨s', e, pc', by simpa using I'⟩
      · refine .inr ⟨_, e, rfl, lim.mono ?_ ?_ ?_⟩
        all_goals
          have : subRk m p.length < subRk m m.nEFill := Nat.count_strict_mono (p := fun e => m.heLive (2 * e)) hl' (by omega)
          have := subIn_le m p.length
          have := I.vFill; have := I.heFill; have := I.fFill; have := I.c_bl
          omega) with ⟨s, e, pc, I⟩ | ⟨e, h, rfl, lim⟩
  · exact .inl ⟨s, pc, e, by simpa using I⟩
  · exact .inr ⟨h, lim⟩

end
end GC
