import Verif.MeshConnect

/-! # insertVertex(face) (model and helper lemmas) -/

set_option linter.unusedSimpArgs false

namespace GC

/-- If `g` is `f` with some steps subdivided by points outside `s`, orbits between points of `s` agree. -/
theorem orb_subdivide {f g : ℕ → ℕ} (s : ℕ → Prop) (hs : ∀ x, s x → s (f x))
    (h : ∀ x, s x → g x = f x ∨ (¬ s (g x) ∧ g (g x) = f x)) {x y : ℕ} (hx : s x) (hy : s y) :
    Orb g x y ↔ Orb f x y := by
  constructor
  · rintro ⟨k, hk⟩
    induction k using Nat.strong_induction_on generalizing x with
    | _ k ih =>
      cases k with
      | zero => exact ⟨0, hk⟩
      | succ k =>
        rw [Function.iterate_succ_apply] at hk
        rcases h x hx with e | ⟨e1, e2⟩
        · rw [e] at hk
          exact (ih k (by omega) (hs x hx) hk).head
        · cases k with
          | zero => rw [Function.iterate_zero, id] at hk; rw [hk] at e1; exact absurd hy e1
          | succ k =>
            rw [Function.iterate_succ_apply, e2] at hk
            exact (ih k (by omega) (hs x hx) hk).head
  · intro o
    have : Orb g x y ∧ s y := by
      refine o.induct (fun z => Orb g x z ∧ s z) ⟨Orb.refl _ _, hx⟩ ?_
      rintro z ⟨oz, sz⟩
      refine ⟨?_, hs z sz⟩
      rcases h z sz with e | ⟨_, e2⟩
      · rw [← e]; exact oz.tail
      · rw [← e2]; exact oz.tail.tail
    exact this.1

namespace Mesh

/-- Predecessor in a cycle of length `d`. -/
def pr (d k : ℕ) : ℕ := (k + d - 1) % d

theorem pr_zero {d : ℕ} (hd : 0 < d) : pr d 0 = d - 1 := by
  unfold pr; rw [Nat.zero_add]; exact Nat.mod_eq_of_lt (by omega)

theorem pr_succ {d k : ℕ} (hk : k + 1 < d) : pr d (k + 1) = k := by
  unfold pr
  rw [show k + 1 + d - 1 = k + d by omega, Nat.add_mod_right]; exact Nat.mod_eq_of_lt (by omega)

theorem pr_lt {d k : ℕ} (hd : 0 < d) : pr d k < d := Nat.mod_lt _ hd

/-- The face of the `k`-th triangle of the fan: the old face, then new ones. -/
def fanFace (m : Mesh) (f k : ℕ) : ℕ := if k = 0 then f else m.nFFill + (k - 1)

/-- Pointwise effect of `insertVertex` on a mesh with enough face slots. `b k` is the `k`-th halfedge of the
face, `m.nHeFill + 2k` runs from its tip to the centre, `m.nHeFill + 2k + 1` back. -/
structure IvSpec (m m' : Mesh) (f d : ℕ) (b : ℕ → ℕ) : Prop where
  hd : 0 < d
  hint : f < m.nFFill
  bsucc : ∀ j, b (j + 1) = m.heNext (b j)
  bper : b d = b 0
  binj : ∀ j k, j < d → k < d → b j = b k → j = k
  bmem : ∀ i, (m.heLive i ∧ m.heFace i = f) ↔ ∃ j < d, i = b j
  next_l : ∀ k < d, m'.heNext (m.nHeFill + 2 * k) = m.nHeFill + 2 * pr d k + 1
  next_q : ∀ k < d, m'.heNext (m.nHeFill + 2 * k + 1) = b (k + 1)
  next_b : ∀ k < d, m'.heNext (b k) = m.nHeFill + 2 * k
  next_o : ∀ i < m.nHeFill, (∀ k < d, i ≠ b k) → m'.heNext i = m.heNext i
  v_l : ∀ k < d, m'.heVertex (m.nHeFill + 2 * k) = m.heVertex (b (k + 1))
  v_q : ∀ k < d, m'.heVertex (m.nHeFill + 2 * k + 1) = m.nVFill
  v_o : ∀ i < m.nHeFill, m'.heVertex i = m.heVertex i
  f_l : ∀ k < d, m'.heFace (m.nHeFill + 2 * k) = m.fanFace f k
  f_q : ∀ k < d, m'.heFace (m.nHeFill + 2 * pr d k + 1) = m.fanFace f k
  f_b : ∀ k < d, m'.heFace (b k) = m.fanFace f k
  f_o : ∀ i, m.heLive i → (∀ k < d, i ≠ b k) → m'.heFace i = m.heFace i
  fh : ∀ k < d, m'.fHalfedge (m.fanFace f k) = b k
  fh_o : ∀ x, (∀ k < d, x ≠ m.fanFace f k) → m'.fHalfedge x = m.fHalfedge x
  vh : m'.vHalfedge m.nVFill = m.nHeFill + 2 * (d - 1) + 1
  vh_o : ∀ v, v ≠ m.nVFill → m'.vHalfedge v = m.vHalfedge v
  c_heFill : m'.nHeFill = m.nHeFill + 2 * d
  c_heCap : m.nHeFill + 2 * d ≤ m'.nHeCap ∧ m'.nHeCap < INV
  c_eFill : m'.nEFill = m.nEFill + d
  c_eCap : m'.nHeCap = 2 * m'.nECap
  c_vFill : m'.nVFill = m.nVFill + 1
  c_vCap : m.nVFill + 1 ≤ m'.nVCap ∧ m'.nVCap < INV
  c_fFill : m'.nFFill = m.nFFill + (d - 1)
  c_fCap : m'.nFCap = m.nFCap
  c_space : m.nFFill + (d - 1) + m.nBLFill ≤ m.nFCap
  c_blFill : m'.nBLFill = m.nBLFill
  c_he : m'.nHe = m.nHe + 2 * d
  c_int : m'.nInt = m.nInt + 2 * d
  c_e : m'.nE = m.nE + d
  c_v : m'.nV = m.nV + 1
  c_f : m'.nF = m.nF + (d - 1)
  c_bl : m'.nBL = m.nBL

section
variable {m m' : Mesh} {f d : ℕ} {b : ℕ → ℕ}

theorem IvSpec.b_live (S : IvSpec m m' f d b) {k : ℕ} (hk : k < d) : m.heLive (b k) ∧ m.heFace (b k) = f :=
  (S.bmem _).2 ⟨k, hk, rfl⟩

theorem IvSpec.b_succ_mem (S : IvSpec m m' f d b) {k : ℕ} (hk : k < d) : ∃ j < d, b (k + 1) = b j := by
  by_cases h : k + 1 < d
  · exact ⟨k + 1, h, rfl⟩
  · have : k + 1 = d := by omega
    exact ⟨0, S.hd, by rw [this, S.bper]⟩

theorem IvSpec.b_pr (S : IvSpec m m' f d b) {k : ℕ} (hk : k < d) : b (pr d k + 1) = b k := by
  cases k with
  | zero => rw [pr_zero S.hd, Nat.sub_add_cancel S.hd, S.bper]
  | succ k => rw [pr_succ hk]

theorem pr_surj {d k : ℕ} (hk : k < d) : ∃ j < d, pr d j = k := by
  by_cases h : k + 1 < d
  · exact ⟨k + 1, h, pr_succ h⟩
  · exact ⟨0, by omega, by rw [pr_zero (by omega)]; omega⟩

theorem fanFace_inj (hint : f < m.nFFill) {j k : ℕ} (h : m.fanFace f j = m.fanFace f k) : j = k := by
  unfold fanFace at h; split_ifs at h <;> omega

theorem IvSpec.live (hv : m.Valid) (S : IvSpec m m' f d b) (i : ℕ) : m'.heLive i ↔
    (m.heLive i ∨ ∃ k < d, i = m.nHeFill + 2 * k ∨ i = m.nHeFill + 2 * k + 1) := by
  have hd := S.hd
  have cap := S.c_heCap
  unfold heLive
  rw [S.c_heFill]
  constructor
  · rintro ⟨h1, h2⟩
    by_cases h : i < m.nHeFill
    · left
      refine ⟨h, ?_⟩
      by_cases hb : ∃ k < d, i = b k
      · obtain ⟨k, hk, rfl⟩ := hb; exact (S.b_live hk).1.2
      · push Not at hb
        rw [← S.next_o i h hb]; exact h2
    · right
      refine ⟨(i - m.nHeFill) / 2, by omega, by omega⟩
  · rintro (⟨h1, h2⟩ | ⟨k, hk, rfl | rfl⟩)
    · refine ⟨by omega, ?_⟩
      by_cases hb : ∃ k < d, i = b k
      · obtain ⟨k, hk, rfl⟩ := hb; rw [S.next_b k hk]; omega
      · push Not at hb
        rw [S.next_o i h1 hb]; exact h2
    · refine ⟨by omega, ?_⟩
      rw [S.next_l k hk]; have := pr_lt (k := k) hd; omega
    · refine ⟨by omega, ?_⟩
      rw [S.next_q k hk]
      obtain ⟨j, hj, e⟩ := S.b_succ_mem hk
      rw [e]; exact (hv.live_lt_INV (S.b_live hj).1).ne

theorem iv_valid (hv : m.Valid) (S : IvSpec m m' f d b) : m'.Valid := by
  classical
  have hd := S.hd
  have hint := S.hint
  have cap := S.c_heCap
  have fcap := hv.f_cap
  have space := S.c_space
  have Neven := hv.he_fill
  have hlive := S.live hv
  have live_old : ∀ {i}, m.heLive i → m'.heLive i := fun h => (hlive _).2 (Or.inl h)
  have live_l : ∀ {k}, k < d → m'.heLive (m.nHeFill + 2 * k) := fun {k} h => (hlive _).2 (Or.inr ⟨k, h, Or.inl rfl⟩)
  have live_q : ∀ {k}, k < d → m'.heLive (m.nHeFill + 2 * k + 1) := fun {k} h =>
    (hlive _).2 (Or.inr ⟨k, h, Or.inr rfl⟩)
  have tw_l : ∀ k, twin (m.nHeFill + 2 * k) = m.nHeFill + 2 * k + 1 := by
    intro k; rw [Neven, ← Nat.mul_add, twin_two_mul]
  have tw_q : ∀ k, twin (m.nHeFill + 2 * k + 1) = m.nHeFill + 2 * k := by
    intro k; rw [← tw_l, twin_twin]
  -- classification
  have kind : ∀ i, m'.heLive i → (∃ k < d, i = m.nHeFill + 2 * k) ∨ (∃ k < d, i = m.nHeFill + 2 * k + 1) ∨
      (∃ k < d, i = b k) ∨ (m.heLive i ∧ ∀ k < d, i ≠ b k) := by
    intro i hi
    rcases (hlive i).1 hi with h | ⟨k, hk, h | h⟩
    · by_cases hb : ∃ k < d, i = b k
      · exact Or.inr (Or.inr (Or.inl hb))
      · push Not at hb; exact Or.inr (Or.inr (Or.inr ⟨h, hb⟩))
    · exact Or.inl ⟨k, hk, h⟩
    · exact Or.inr (Or.inl ⟨k, hk, h⟩)
  have notb : ∀ {i}, m.heLive i → ((∀ k < d, i ≠ b k) ↔ m.heFace i ≠ f) := by
    intro i hi
    constructor
    · intro h e
      obtain ⟨j, hj, e⟩ := (S.bmem i).1 ⟨hi, e⟩
      exact h j hj e
    · rintro h k hk rfl; exact h (S.b_live hk).2
  have htl : ∀ i, m'.heLive i → m'.heLive (twin i) := by
    intro i hi
    rcases (hlive i).1 hi with h | ⟨k, hk, rfl | rfl⟩
    · exact live_old (hv.twin_live _ h)
    · rw [tw_l]; exact live_q hk
    · rw [tw_q]; exact live_l hk
  have hnl : ∀ i, m'.heLive i → m'.heLive (m'.heNext i) := by
    intro i hi
    rcases kind i hi with ⟨k, hk, rfl⟩ | ⟨k, hk, rfl⟩ | ⟨k, hk, rfl⟩ | ⟨h, hb⟩
    · rw [S.next_l k hk]; exact live_q (pr_lt hd)
    · rw [S.next_q k hk]
      obtain ⟨j, hj, e⟩ := S.b_succ_mem hk
      rw [e]; exact live_old (S.b_live hj).1
    · rw [S.next_b k hk]; exact live_l hk
    · rw [S.next_o i h.1 hb]; exact live_old (hv.next_live _ h)
  -- faces
  have fanlt : ∀ k < d, m.fanFace f k < m.nFFill + (d - 1) := by
    intro k hk; unfold fanFace; split_ifs <;> omega
  have fannew : ∀ {i}, m.heLive i → m.heFace i ≠ f → ∀ k, k < d → m.heFace i ≠ m.fanFace f k := by
    intro i hi hne k hk
    unfold fanFace
    split_ifs with h
    · exact hne
    · by_cases e : m.ext i
      · have := hv.face_ext_region hi e; omega
      · have := Valid.face_lt e; omega
  have fkind : ∀ i, m'.heLive i →
      (∃ k < d, m'.heFace i = m.fanFace f k ∧
        (i = m.nHeFill + 2 * k ∨ i = m.nHeFill + 2 * pr d k + 1 ∨ i = b k)) ∨
      (m.heLive i ∧ m.heFace i ≠ f ∧ m'.heFace i = m.heFace i ∧ m'.heNext i = m.heNext i) := by
    intro i hi
    rcases kind i hi with ⟨k, hk, rfl⟩ | ⟨k, hk, rfl⟩ | ⟨k, hk, rfl⟩ | ⟨h, hb⟩
    · exact Or.inl ⟨k, hk, S.f_l k hk, Or.inl rfl⟩
    · obtain ⟨j, hj, rfl⟩ := pr_surj hk
      exact Or.inl ⟨j, hj, S.f_q j hj, Or.inr (Or.inl rfl)⟩
    · exact Or.inl ⟨k, hk, S.f_b k hk, Or.inr (Or.inr rfl)⟩
    · exact Or.inr ⟨h, (notb h).1 hb, S.f_o i h hb, S.next_o i h.1 hb⟩
  have tri : ∀ k < d, ∀ i j, (i = m.nHeFill + 2 * k ∨ i = m.nHeFill + 2 * pr d k + 1 ∨ i = b k) →
      (j = m.nHeFill + 2 * k ∨ j = m.nHeFill + 2 * pr d k + 1 ∨ j = b k) → Orb m'.heNext i j := by
    intro k hk i j hi hj
    have e1 : Orb m'.heNext (m.nHeFill + 2 * k) (m.nHeFill + 2 * pr d k + 1) := ⟨1, S.next_l k hk⟩
    have e2 : Orb m'.heNext (m.nHeFill + 2 * pr d k + 1) (b k) :=
      ⟨1, by rw [Function.iterate_one, S.next_q _ (pr_lt hd), S.b_pr hk]⟩
    have e3 : Orb m'.heNext (b k) (m.nHeFill + 2 * k) := ⟨1, S.next_b k hk⟩
    rcases hi with rfl | rfl | rfl <;> rcases hj with rfl | rfl | rfl
    · exact Orb.refl _ _
    · exact e1
    · exact e1.trans e2
    · exact e2.trans e3
    · exact Orb.refl _ _
    · exact e2
    · exact e3
    · exact e3.trans e1
    · exact Orb.refl _ _
  have finv : ∀ i, m'.heLive i → m'.heFace (m'.heNext i) = m'.heFace i := by
    intro i hi
    rcases fkind i hi with ⟨k, hk, e, rfl | rfl | rfl⟩ | ⟨h, hne, e1, e2⟩
    · rw [S.next_l k hk, S.f_q k hk, e]
    · rw [S.next_q _ (pr_lt hd), S.b_pr hk, S.f_b k hk, e]
    · rw [S.next_b k hk, S.f_l k hk, e]
    · rw [e2, e1, S.f_o _ (hv.next_live _ h), hv.face_next h]
      rw [notb (hv.next_live _ h), hv.face_next h]; exact hne
  have oldorb : ∀ {i j}, m.heLive i → m.heFace i ≠ f → (Orb m.heNext i j ↔ Orb m'.heNext i j) := by
    intro i j hi hne
    refine Orb.congr (fun z => m.heLive z ∧ m.heFace z ≠ f) ⟨hi, hne⟩ ?_ ?_
    · rintro z ⟨h1, h2⟩; exact ⟨hv.next_live _ h1, by rw [hv.face_next h1]; exact h2⟩
    · rintro z ⟨h1, h2⟩; exact (S.next_o z h1.1 ((notb h1).2 h2)).symm
  have fconn : ∀ i j, m'.heLive i → m'.heLive j → (m'.heFace i = m'.heFace j ↔ Orb m'.heNext i j) := by
    intro i j hi hj
    constructor
    · intro h
      rcases fkind i hi with ⟨k, hk, e, r⟩ | ⟨li, nei, fi, _⟩ <;>
        rcases fkind j hj with ⟨k', hk', e', r'⟩ | ⟨lj, nej, fj, _⟩
      · have : k = k' := fanFace_inj hint (by rw [← e, ← e', h])
        subst this; exact tri k hk i j r r'
      · exact absurd (by rw [← fj, ← h, e]) (fannew lj nej k hk)
      · exact absurd (by rw [← fi, h, e']) (fannew li nei k' hk')
      · rw [← oldorb li nei, ← hv.face_iff i j li lj, ← fi, ← fj, h]
    · intro o
      exact (o.induct (fun z => m'.heLive z ∧ m'.heFace z = m'.heFace i) ⟨hi, rfl⟩
        (fun z hz => ⟨hnl z hz.1, by rw [finv z hz.1, hz.2]⟩)).2.symm
  -- vertices
  have nvne : ∀ {i}, m.heLive i → m.heVertex i ≠ m.nVFill := fun hi => (hv.vertex_live _ hi).1.ne
  have b1live : ∀ {k}, k < d → m.heLive (b (k + 1)) := by
    intro k hk; obtain ⟨j, hj, e⟩ := S.b_succ_mem hk; rw [e]; exact (S.b_live hj).1
  have vN_l : ∀ k < d, m'.vNext (m.nHeFill + 2 * k) = b (k + 1) := by
    intro k hk; unfold vNext; rw [tw_l, S.next_q k hk]
  have vN_q : ∀ k < d, m'.vNext (m.nHeFill + 2 * k + 1) = m.nHeFill + 2 * pr d k + 1 := by
    intro k hk; unfold vNext; rw [tw_q, S.next_l k hk]
  have vN_b : ∀ k < d, m'.vNext (twin (b k)) = m.nHeFill + 2 * k := by
    intro k hk; unfold vNext; rw [twin_twin, S.next_b k hk]
  have vN_o : ∀ i, m.heLive i → (∀ k < d, twin i ≠ b k) → m'.vNext i = m.vNext i := by
    intro i hi hb; unfold vNext; rw [S.next_o _ (hv.twin_live _ hi).1 hb]
  have vorb : ∀ {i j}, m.heLive i → m.heLive j → (Orb m'.vNext i j ↔ Orb m.vNext i j) := by
    intro i j hi hj
    refine orb_subdivide (fun z => m.heLive z) (fun z hz => hv.vNext_live hz) ?_ hi hj
    intro x hx
    by_cases hb : ∃ k < d, twin x = b k
    · obtain ⟨k, hk, e⟩ := hb
      have ex : x = twin (b k) := by rw [← e, twin_twin]
      right
      rw [ex, vN_b k hk, vN_l k hk]
      refine ⟨fun h => by have := h.1; omega, ?_⟩
      unfold vNext; rw [twin_twin, S.bsucc]
    · push Not at hb; exact Or.inl (vN_o x hx hb)
  have qdown : ∀ k < d, Orb m'.vNext (m.nHeFill + 2 * k + 1) (m.nHeFill + 1) := by
    intro k
    induction k with
    | zero => intro _; exact Orb.refl _ _
    | succ k ih =>
      intro hk
      refine Orb.trans ⟨1, ?_⟩ (ih (by omega))
      rw [Function.iterate_one, vN_q _ hk, pr_succ hk]
  have qtop : ∀ n k, k + n + 1 = d → Orb m'.vNext (m.nHeFill + 1) (m.nHeFill + 2 * k + 1) := by
    intro n
    induction n with
    | zero =>
      intro k hk
      refine ⟨1, ?_⟩
      rw [Function.iterate_one]
      have := vN_q 0 hd
      rw [pr_zero hd] at this
      rw [show m.nHeFill + 1 = m.nHeFill + 2 * 0 + 1 from rfl, this]; congr 3; omega
    | succ n ih =>
      intro k hk
      have := (ih (k + 1) (by omega)).tail
      rw [vN_q _ (by omega), pr_succ (by omega)] at this; exact this
  have vkind : ∀ i, m'.heLive i → (∃ k < d, i = m.nHeFill + 2 * k + 1 ∧ m'.heVertex i = m.nVFill) ∨
      (∃ o o', m.heLive o ∧ m.heLive o' ∧ m'.heVertex i = m.heVertex o ∧ m.heVertex o' = m.heVertex o ∧
        Orb m'.vNext i o ∧ Orb m'.vNext o' i) := by
    intro i hi
    rcases (hlive i).1 hi with h | ⟨k, hk, rfl | rfl⟩
    · exact Or.inr ⟨i, i, h, h, S.v_o i h.1, rfl, Orb.refl _ _, Orb.refl _ _⟩
    · right
      refine ⟨b (k + 1), twin (b k), b1live hk, hv.twin_live _ (S.b_live hk).1, S.v_l k hk, ?_, ⟨1, vN_l k hk⟩,
        ⟨1, vN_b k hk⟩⟩
      rw [S.bsucc, hv.vertex_next (S.b_live hk).1]
    · exact Or.inl ⟨k, hk, rfl, S.v_q k hk⟩
  have vinv : ∀ i, m'.heLive i → m'.heVertex (m'.vNext i) = m'.heVertex i := by
    intro i hi
    rcases (hlive i).1 hi with h | ⟨k, hk, rfl | rfl⟩
    · by_cases hb : ∃ k < d, twin i = b k
      · obtain ⟨k, hk, e⟩ := hb
        have ex : i = twin (b k) := by rw [← e, twin_twin]
        rw [ex, vN_b k hk, S.v_l k hk, S.v_o _ (hv.twin_live _ (S.b_live hk).1).1, S.bsucc,
          hv.vertex_next (S.b_live hk).1]
      · push Not at hb
        rw [vN_o i h hb, S.v_o i h.1, S.v_o _ (hv.vNext_live h).1]
        exact hv.vertex_vNext h
    · rw [vN_l k hk, S.v_l k hk, S.v_o _ (b1live hk).1]
    · rw [vN_q k hk, S.v_q k hk, S.v_q _ (pr_lt hd)]
  have vconn : ∀ i j, m'.heLive i → m'.heLive j → (m'.heVertex i = m'.heVertex j ↔ Orb m'.vNext i j) := by
    intro i j hi hj
    constructor
    · intro h
      rcases vkind i hi with ⟨k, hk, ei, evi⟩ | ⟨o, o', lo, lo', e1, e2, r1, r2⟩ <;>
        rcases vkind j hj with ⟨k', hk', ej, evj⟩ | ⟨p, p', lp, lp', e1', e2', r1', r2'⟩
      · rw [ei, ej]
        exact (qdown k hk).trans (qtop (d - 1 - k') k' (by omega))
      · exact absurd (by rw [← e1', ← h, evi]) (nvne lp)
      · exact absurd (by rw [← e1, h, evj]) (nvne lo)
      · have : Orb m.vNext o p' := (hv.vertex_iff o p' lo lp').1 (by rw [← e1, h, e1', e2'])
        exact r1.trans (((vorb lo lp').2 this).trans r2')
    · intro o
      exact (o.induct (fun z => m'.heLive z ∧ m'.heVertex z = m'.heVertex i) ⟨hi, rfl⟩
        (fun z hz => ⟨hnl _ (htl z hz.1), by rw [vinv z hz.1, hz.2]⟩)).2.symm
  -- exterior halfedges
  have ext_old : ∀ {i}, m.heLive i → (m'.ext i ↔ m.ext i) := by
    intro i hi
    unfold ext
    rw [S.c_fFill]
    by_cases hb : ∃ k < d, i = b k
    · obtain ⟨k, hk, rfl⟩ := hb
      rw [S.f_b k hk, (S.b_live hk).2]
      have := fanlt k hk; omega
    · push Not at hb
      rw [S.f_o i hi hb]
      constructor
      · intro; omega
      · intro h; have := hv.face_ext_region hi h; omega
  have ext_inv : ∀ {i}, m'.heLive i → m'.ext i → m.heLive i ∧ m.ext i := by
    intro i hi ei
    rcases (hlive i).1 hi with h | ⟨k, hk, rfl | rfl⟩
    · exact ⟨h, (ext_old h).1 ei⟩
    · exfalso; unfold ext at ei; rw [S.f_l k hk, S.c_fFill] at ei; have := fanlt k hk; omega
    · exfalso; unfold ext at ei
      obtain ⟨j, hj, rfl⟩ := pr_surj hk
      rw [S.f_q j hj, S.c_fFill] at ei; have := fanlt j hj; omega
  have int_new : ∀ i, m.nHeFill ≤ i → i < m.nHeFill + 2 * d → m'.heLive i ∧ m'.heFace i < m'.nFFill := by
    intro i h1 h2
    have hl : m'.heLive i := (hlive i).2 (Or.inr ⟨(i - m.nHeFill) / 2, by omega, by omega⟩)
    refine ⟨hl, ?_⟩
    by_contra h
    have := (ext_inv hl (by unfold ext; omega)).1.1
    omega
  -- element arrays
  have vlive_old : ∀ {v}, m.vLive v → m'.vLive v := by
    rintro v ⟨h1, h2⟩; exact ⟨by rw [S.c_vFill]; omega, by rw [S.vh_o v h1.ne]; exact h2⟩
  have vlive_new : m'.vLive m.nVFill := ⟨by rw [S.c_vFill]; omega, by rw [S.vh]; omega⟩
  have fhfan : ∀ k < d, m'.fHalfedge (m.fanFace f k) ≠ INV := by
    intro k hk; rw [S.fh k hk]; exact (hv.live_lt_INV (S.b_live hk).1).ne
  have flive_fan : ∀ k < d, m'.fLive (m.fanFace f k) := by
    intro k hk; exact ⟨Or.inl (by rw [S.c_fFill]; exact fanlt k hk), fhfan k hk⟩
  have hfl : m.fLive f := by
    have := hv.face_live _ (S.b_live hd).1; rwa [(S.b_live hd).2] at this
  have flive_old : ∀ {g}, m.fLive g → m'.fLive g := by
    intro g hg
    by_cases h : ∃ k < d, g = m.fanFace f k
    · obtain ⟨k, hk, rfl⟩ := h; exact flive_fan k hk
    · push Not at h
      refine ⟨?_, by rw [S.fh_o g h]; exact hg.2⟩
      rw [S.c_fFill, S.c_fCap, S.c_blFill]
      rcases hg.1 with h | h
      · left; omega
      · right; exact h
  constructor
  · rw [S.c_heFill, S.c_eFill, Neven]; omega
  · rw [S.c_heFill]; exact cap
  · exact S.c_eCap
  · rw [S.c_vFill]; exact S.c_vCap
  · rw [S.c_fFill, S.c_fCap, S.c_blFill]; exact ⟨space, fcap.2⟩
  · exact htl
  · exact hnl
  · intro i hi
    rcases vkind i hi with ⟨k, hk, ei, evi⟩ | ⟨o, o', lo, lo', e1, e2, r1, r2⟩
    · rw [evi]; exact vlive_new
    · rw [e1]; exact vlive_old (hv.vertex_live _ lo)
  · intro i hi
    rcases fkind i hi with ⟨k, hk, e, r⟩ | ⟨li, nei, fi, _⟩
    · rw [e]; exact flive_fan k hk
    · rw [fi]; exact flive_old (hv.face_live _ li)
  · exact fconn
  · exact vconn
  · intro v hvl
    by_cases e : v = m.nVFill
    · subst e; rw [S.vh]; exact ⟨live_q (by omega), S.v_q _ (by omega)⟩
    · have hv0 : m.vLive v := by
        refine ⟨?_, by rw [← S.vh_o v e]; exact hvl.2⟩
        have := hvl.1; rw [S.c_vFill] at this; omega
      obtain ⟨l0, e0⟩ := hv.v_he v hv0
      rw [S.vh_o v e]
      exact ⟨live_old l0, by rw [S.v_o _ l0.1, e0]⟩
  · intro g hg
    by_cases h : ∃ k < d, g = m.fanFace f k
    · obtain ⟨k, hk, rfl⟩ := h
      rw [S.fh k hk]; exact ⟨live_old (S.b_live hk).1, S.f_b k hk⟩
    · push Not at h
      have hg0 : m.fLive g := by
        refine ⟨?_, by rw [← S.fh_o g h]; exact hg.2⟩
        have h1 := hg.1
        rw [S.c_fFill, S.c_fCap, S.c_blFill] at h1
        rcases h1 with h1 | h1
        · left
          by_contra hge
          refine h (g - m.nFFill + 1) (by omega) ?_
          unfold fanFace; rw [if_neg (by omega)]; omega
        · exact Or.inr h1
      obtain ⟨l0, e0⟩ := hv.f_he g hg0
      rw [S.fh_o g h]
      refine ⟨live_old l0, ?_⟩
      rw [S.f_o _ l0, e0]
      rw [notb l0, e0]
      rintro rfl; exact h 0 hd (by unfold fanFace; rw [if_pos rfl])
  · intro i hi
    rcases kind i hi with ⟨k, hk, rfl⟩ | ⟨k, hk, rfl⟩ | ⟨k, hk, rfl⟩ | ⟨h, hb⟩
    · rw [S.next_l k hk]; omega
    · rw [S.next_q k hk]; have := (b1live hk).1; omega
    · rw [S.next_b k hk]; have := (S.b_live hk).1.1; omega
    · rw [S.next_o i h.1 hb]; exact hv.deg_two i h
  · intro e he hex
    obtain ⟨h1, h2⟩ := ext_inv he hex
    exact hv.edge_int e h1 h2
  · intro i j hi hj ei ej hij
    obtain ⟨l1, x1⟩ := ext_inv hi ei
    obtain ⟨l2, x2⟩ := ext_inv hj ej
    rw [S.v_o i l1.1, S.v_o j l2.1] at hij
    exact hv.bdy_unique i j l1 l2 x1 x2 hij
  · intro i hi ei
    obtain ⟨l1, x1⟩ := ext_inv hi ei
    have l0 := (hv.v_he _ (hv.vertex_live i l1)).1
    rw [S.v_o i l1.1, S.vh_o _ (nvne l1), ext_old (hv.twin_live _ l0)]
    exact hv.bdy_first i l1 x1
  · have hc : Nat.count (fun i => m'.heNext i ≠ INV) m.nHeFill =
        Nat.count (fun i => m.heNext i ≠ INV) m.nHeFill := by
      refine count_congr fun i hi => ?_
      constructor
      · intro h
        have : m'.heLive i := ⟨by rw [S.c_heFill]; omega, h⟩
        rcases (hlive i).1 this with h | ⟨k, hk, h | h⟩
        · exact h.2
        · omega
        · omega
      · intro h; exact (live_old ⟨hi, h⟩).2
    have hn : Nat.count (fun k => m'.heNext (m.nHeFill + k) ≠ INV) (2 * d) = 2 * d :=
      Nat.count_of_forall fun k hk => (int_new _ (Nat.le_add_right _ _) (by omega)).1.2
    rw [S.c_he, S.c_heFill, Nat.count_add, hc, hv.cnt_he, hn]
  · have hc : Nat.count (fun i => m'.heNext i ≠ INV ∧ m'.heFace i < m'.nFFill) m.nHeFill =
        Nat.count (fun i => m.heNext i ≠ INV ∧ m.heFace i < m.nFFill) m.nHeFill := by
      refine count_congr fun i hi => ?_
      have g : m.heNext i ≠ INV → (m'.heFace i < m'.nFFill ↔ m.heFace i < m.nFFill) := by
        intro hn
        have := ext_old ⟨hi, hn⟩
        unfold ext at this; omega
      constructor
      · rintro ⟨h, h'⟩
        have : m'.heLive i := ⟨by rw [S.c_heFill]; omega, h⟩
        rcases (hlive i).1 this with h | ⟨k, hk, h | h⟩
        · exact ⟨h.2, (g h.2).1 h'⟩
        · omega
        · omega
      · rintro ⟨h, h'⟩; exact ⟨(live_old ⟨hi, h⟩).2, (g h).2 h'⟩
    have hn : Nat.count (fun k => m'.heNext (m.nHeFill + k) ≠ INV ∧ m'.heFace (m.nHeFill + k) < m'.nFFill)
        (2 * d) = 2 * d :=
      Nat.count_of_forall fun k hk => ⟨(int_new _ (Nat.le_add_right _ _) (by omega)).1.2,
        (int_new _ (Nat.le_add_right _ _) (by omega)).2⟩
    rw [S.c_int, S.c_heFill, Nat.count_add, hc, hv.cnt_int, hn]
  · have hc : Nat.count (fun e => m'.heNext (eHalfedge e) ≠ INV) m.nEFill =
        Nat.count (fun e => m.heNext (eHalfedge e) ≠ INV) m.nEFill := by
      refine count_congr fun e he => ?_
      unfold eHalfedge
      constructor
      · intro h
        have : m'.heLive (2 * e) := ⟨by rw [S.c_heFill]; omega, h⟩
        rcases (hlive _).1 this with h | ⟨k, hk, h | h⟩
        · exact h.2
        · omega
        · omega
      · intro h; exact (live_old ⟨by omega, h⟩).2
    have hn : Nat.count (fun k => m'.heNext (eHalfedge (m.nEFill + k)) ≠ INV) d = d :=
      Nat.count_of_forall fun k hk => by
        unfold eHalfedge; exact (int_new _ (by omega) (by omega)).1.2
    rw [S.c_e, S.c_eFill, Nat.count_add, hc, hv.cnt_e, hn]
  · have hc : Nat.count (fun v => m'.vHalfedge v ≠ INV) m.nVFill =
        Nat.count (fun v => m.vHalfedge v ≠ INV) m.nVFill :=
      count_congr fun v hvv => by rw [S.vh_o v hvv.ne]
    rw [S.c_v, S.c_vFill, Nat.count_succ, hc, hv.cnt_v, if_pos vlive_new.2]
  · have hc : Nat.count (fun g => m'.fHalfedge g ≠ INV) m.nFFill =
        Nat.count (fun g => m.fHalfedge g ≠ INV) m.nFFill := by
      refine count_congr fun g hg => ?_
      by_cases e : g = f
      · subst e
        have := fhfan 0 hd
        unfold fanFace at this; rw [if_pos rfl] at this
        exact iff_of_true this hfl.2
      · rw [S.fh_o]
        intro k hk; unfold fanFace; split_ifs
        · exact e
        · omega
    have hn : Nat.count (fun k => m'.fHalfedge (m.nFFill + k) ≠ INV) (d - 1) = d - 1 :=
      Nat.count_of_forall fun k hk => by
        have := fhfan (k + 1) (by omega)
        unfold fanFace at this; rw [if_neg (by omega)] at this; exact this
    rw [S.c_f, S.c_fFill, Nat.count_add, hc, hv.cnt_f, hn]
  · rw [S.c_bl, S.c_blFill]; exact hv.cnt_bl
  · intro g h1 h2
    rw [S.c_fCap, S.c_blFill] at h1; rw [S.c_fCap] at h2
    rw [S.fh_o]
    · exact hv.bl_live g h1 h2
    · intro k hk; have := fanlt k hk; omega

end

/-! ### The code -/

/-- Allocation loop of `insertVertex`, manifold_surface_mesh.cpp:981-996, after `n` iterations: the mesh and
the arrays `innerFaces`, `leadingHalfedges`, `trailingHalfedges`. `innerEdges` is only read into unused
variables and is left out. -/
def ivAlloc (m : Mesh) (f d : ℕ) : ℕ → Res (Mesh × (ℕ → ℕ) × (ℕ → ℕ) × (ℕ → ℕ))
  | 0 => .ok (m, fun _ => INV, fun _ => INV, fun _ => INV)
  | i + 1 =>
    match ivAlloc m f d i with
    | .error e => .error e
    | .ok (m1, fa, le, tr) =>
      match (if i = 0 then .ok (m1, f) else m1.getNewFace) with
      | .error e => .error e
      | .ok (m2, g) =>
        match m2.getNewEdgeTriple false with
        | .error e => .error e
        | .ok (m3, he) => .ok (m3, upd fa i g, upd le i he, upd tr ((i + 1) % d) (twin he))

/-- One iteration of the connecting loop, manifold_surface_mesh.cpp:1006-1032. -/
def ivStep (m : Mesh) (c g lead trail b : ℕ) : Mesh :=
  let m1 := { m with fHalfedge := upd m.fHalfedge g b }
  -- leading halfedge
  let m2 := { m1 with heNext := upd m1.heNext lead trail }
  let m3 := { m2 with heVertex := upd m2.heVertex lead (m2.heVertex (m2.heNext b)) }
  let m4 := { m3 with heFace := upd m3.heFace lead g }
  -- trailing halfedge
  let m5 := { m4 with heNext := upd m4.heNext trail b }
  let m6 := { m5 with heVertex := upd m5.heVertex trail c }
  let m7 := { m6 with heFace := upd m6.heFace trail g }
  -- boundary halfedge
  { m7 with heNext := upd m7.heNext b lead, heFace := upd m7.heFace b g }

/-- The connecting loop, after `n` iterations. -/
def ivWrite (m : Mesh) (c : ℕ) (fa le tr b : ℕ → ℕ) : ℕ → Mesh
  | 0 => m
  | i + 1 => ivStep (ivWrite m c fa le tr b i) c (fa i) (le i) (tr i) (b i)

/-- `ManifoldSurfaceMesh::insertVertex(Face)`, manifold_surface_mesh.cpp:964-1037. -/
def insertVertex (m : Mesh) (f : ℕ) : Res (Mesh × ℕ) :=
  match m.getNewVertex with
  | .error e => .error e
  | .ok (m1, c) =>
    match m1.faceHalfedges f with
    | .error e => .error e
    | .ok l0 =>
      match ivAlloc m1 f l0.length l0.length with
      | .error e => .error e
      | .ok (m2, fa, le, tr) =>
        match m2.faceHalfedges f with
        | .error e => .error e
        | .ok bs =>
          let m3 := ivWrite m2 c fa le tr (fun i => bs.getD i INV) l0.length
          .ok ({ m3 with vHalfedge := upd m3.vHalfedge c (tr 0) }, c)

/-! ### Derivation of `IvSpec` -/

/-- `m0` is `m` after its face storage has been doubled some number of times. -/
inductive Grown (m : Mesh) : Mesh → Prop
  | refl : Grown m m
  | step {m0 : Mesh} : Grown m m0 → m0.nFCap * 2 < INV → Grown m m0.expandFaceStorage

/-- What growing does not touch. -/
theorem Grown.facts {m m0 : Mesh} (h : Grown m m0) :
    m0.heNext = m.heNext ∧ m0.heVertex = m.heVertex ∧ m0.vHalfedge = m.vHalfedge ∧
    (m0.nHe = m.nHe ∧ m0.nHeFill = m.nHeFill ∧ m0.nHeCap = m.nHeCap ∧ m0.nInt = m.nInt) ∧
    (m0.nV = m.nV ∧ m0.nVFill = m.nVFill ∧ m0.nVCap = m.nVCap) ∧
    (m0.nE = m.nE ∧ m0.nEFill = m.nEFill ∧ m0.nECap = m.nECap) ∧
    (m0.nF = m.nF ∧ m0.nFFill = m.nFFill ∧ m0.nBL = m.nBL ∧ m0.nBLFill = m.nBLFill) ∧ m.nFCap ≤ m0.nFCap := by
  induction h with
  | refl => simp
  | step _ _ ih =>
    obtain ⟨h1, h2, h3, h4, h5, h6, h7, h8⟩ := ih
    exact ⟨h1, h2, h3, h4, h5, h6, h7, h8.trans (by show _ ≤ _ * 2; omega)⟩

theorem Grown.valid {m m0 : Mesh} (hv : m.Valid) (h : Grown m m0) : m0.Valid := by
  induction h with
  | refl => exact hv
  | step _ hc ih => exact expand_valid ih hc

theorem Grown.heLive {m m0 : Mesh} (h : Grown m m0) (i : ℕ) : m0.heLive i ↔ m.heLive i := by
  obtain ⟨h1, h2, h3, h4, h5, h6, h7, h8⟩ := h.facts
  unfold Mesh.heLive; rw [h1, h4.2.1]

theorem Grown.face_int {m m0 : Mesh} (h : Grown m m0) : ∀ {i}, ¬ m.ext i → m0.heFace i = m.heFace i := by
  induction h with
  | refl => intro i _; rfl
  | step g _ ih =>
    intro i hi
    have e := ih hi
    have c := g.facts.2.2.2.2.2.2.1.2.1
    unfold ext at hi
    unfold expandFaceStorage; simp only
    rw [if_neg (by omega), e]

theorem Grown.ext {m m0 : Mesh} (h : Grown m m0) : ∀ {i}, m0.ext i ↔ m.ext i := by
  induction h with
  | refl => intro i; exact Iff.rfl
  | step g _ ih =>
    intro i
    rw [← ih]
    unfold Mesh.ext expandFaceStorage; simp only
    split_ifs <;> omega

theorem Grown.fHalfedge {m m0 : Mesh} (hv : m.Valid) (h : Grown m m0) : ∀ {g}, g < m.nFFill →
    m0.fHalfedge g = m.fHalfedge g := by
  induction h with
  | refl => intro i _; rfl
  | @step m0 g' _ ih =>
    intro i hi
    have c := g'.facts.2.2.2.2.2.2
    have hc := (g'.valid hv).f_cap
    unfold expandFaceStorage; simp only
    rw [if_neg (by omega), if_neg (by omega), ih hi]

/-- State of the allocation loop after `n` iterations, started from `m` with one vertex added. -/
structure AllocInv (m r : Mesh) (f d n : ℕ) (fa le tr : ℕ → ℕ) (m0 : Mesh) : Prop where
  grown : Grown m m0
  nx : r.heNext = m.heNext
  vt : r.heVertex = m.heVertex
  vh : r.vHalfedge = m.vHalfedge
  fc : ∀ i, m.heLive i → r.heFace i = m0.heFace i
  fh : r.fHalfedge = m0.fHalfedge
  fcap : r.nFCap = m0.nFCap
  space : m.nFFill + (n - 1) + m.nBLFill ≤ m0.nFCap
  heFill : r.nHeFill = m.nHeFill + 2 * n
  heCap : m.nHeFill + 2 * n ≤ r.nHeCap ∧ r.nHeCap < INV
  eFill : r.nEFill = m.nEFill + n
  eCap : r.nHeCap = 2 * r.nECap
  vFill : r.nVFill = m.nVFill + 1
  vCap : m.nVFill + 1 ≤ r.nVCap ∧ r.nVCap < INV
  fFill : r.nFFill = m.nFFill + (n - 1)
  blFill : r.nBLFill = m.nBLFill
  he : r.nHe = m.nHe + 2 * n
  int : r.nInt = m.nInt + 2 * n
  e : r.nE = m.nE + n
  v : r.nV = m.nV + 1
  fcount : r.nF = m.nF + (n - 1)
  bl : r.nBL = m.nBL
  hfa : ∀ k < n, fa k = m.fanFace f k
  hle : ∀ k < n, le k = m.nHeFill + 2 * k
  htr : ∀ k < n, tr ((k + 1) % d) = m.nHeFill + 2 * k + 1

theorem ivAlloc_ok {m r0 : Mesh} (hv : m.Valid) {f d vc : ℕ} (hf : f < m.nFFill)
    (hr0 : r0 = { m with nVCap := vc, nVFill := m.nVFill + 1, nV := m.nV + 1 })
    (hvc : m.nVFill + 1 ≤ vc ∧ vc < INV) : ∀ n ≤ d,
    (ivAlloc r0 f d n = .error .oom ∧ m.nearLimit n) ∨
    ∃ r fa le tr m0, ivAlloc r0 f d n = .ok (r, fa, le, tr) ∧ AllocInv m r f d n fa le tr m0 := by
  intro n
  induction n with
  | zero =>
    intro _; right
    subst hr0
    refine ⟨_, _, _, _, m, rfl, ?_⟩
    have h1 := hv.he_cap; have h2 := hv.f_cap.1
    constructor
    case grown => exact .refl
    case heCap => exact h1
    case eCap => exact hv.e_cap
    case vCap => exact hvc
    case space => simpa using h2
    all_goals first
      | rfl
      | (intro k hk; exact absurd hk (by omega))
      | (intro k hk; rfl)
  | succ n ih =>
    intro hn
    rcases ih (by omega) with ⟨h, lim⟩ | ⟨r, fa, le, tr, m0, h, A⟩
    · left; unfold ivAlloc; rw [h]; exact ⟨rfl, lim.mono (by omega) (by omega) (by omega)⟩
    unfold ivAlloc
    rw [h]; simp only
    obtain ⟨g1, g2, g3, g4, g5, g6, g7, g8⟩ := A.grown.facts
    have hv0 := A.grown.valid hv
    have heven := hv.he_fill
    -- the face
    have key : ((if n = 0 then .ok (r, f) else r.getNewFace) = .error .oom ∧ m.nearLimit (n+1)) ∨
        ∃ r1 m1, (if n = 0 then .ok (r, f) else r.getNewFace) = .ok (r1, m.fanFace f n) ∧
          Grown m m1 ∧ r1.heNext = r.heNext ∧ r1.heVertex = r.heVertex ∧ r1.vHalfedge = r.vHalfedge ∧
          (∀ i, m.heLive i → r1.heFace i = m1.heFace i) ∧ r1.fHalfedge = m1.fHalfedge ∧ r1.nFCap = m1.nFCap ∧
          m.nFFill + n + m.nBLFill ≤ m1.nFCap ∧
          (r1.nHeFill = r.nHeFill ∧ r1.nHeCap = r.nHeCap ∧ r1.nHe = r.nHe ∧ r1.nInt = r.nInt) ∧
          (r1.nEFill = r.nEFill ∧ r1.nECap = r.nECap ∧ r1.nE = r.nE) ∧
          (r1.nVFill = r.nVFill ∧ r1.nVCap = r.nVCap ∧ r1.nV = r.nV) ∧
          r1.nFFill = m.nFFill + n ∧ r1.nF = m.nF + n ∧ r1.nBLFill = r.nBLFill ∧ r1.nBL = r.nBL := by
      by_cases hn0 : n = 0
      · right
        have a1 := A.fFill; have a2 := A.fcount; have a3 := A.space
        subst hn0
        refine ⟨r, m0, by simp [fanFace], A.grown, rfl, rfl, rfl, A.fc, A.fh, A.fcap, by simpa using a3,
          ⟨rfl, rfl, rfl, rfl⟩, ⟨rfl, rfl, rfl⟩, ⟨rfl, rfl, rfl⟩, by simpa using a1, by simpa using a2, rfl, rfl⟩
      · have a1 := A.fFill; have a2 := A.fcount; have a3 := A.space; have a4 := A.fcap; have a5 := A.blFill
        have a6 := A.bl; have a7 := hv.cnt_bl
        rw [if_neg hn0]
        rcases getNewFace_ok (m := r) (by omega) (by omega) (by omega) (by rw [a4]; exact hv0.f_cap.2) with ⟨e, lim⟩ | ⟨e, e1, e2⟩
        · have a8 := A.heFill; have a9 := A.vFill
          exact Or.inl ⟨e, lim.mono (by omega) (by omega) (by omega)⟩
        right
        rw [e]
        have fe : m.fanFace f n = r.nFFill := by unfold fanFace; rw [if_neg hn0, a1]
        by_cases hs : r.nFFill + r.nBL < r.nFCap
        · have es : r.spare = r := by unfold spare; rw [if_pos hs]
          rw [es]
          refine ⟨{ r with nF := r.nF + 1, nFFill := r.nFFill + 1 }, m0, by rw [fe], A.grown, rfl, rfl, rfl, A.fc, A.fh, A.fcap,
            by omega, ⟨rfl, rfl, rfl, rfl⟩, ⟨rfl, rfl, rfl⟩, ⟨rfl, rfl, rfl⟩, by simp only; omega,
            by simp only; omega, rfl, rfl⟩
        · have es : r.spare = r.expandFaceStorage := by unfold spare; rw [if_neg hs]
          rw [es] at e1 e2 ⊢
          have e1' : r.nFCap * 2 < INV := e1
          refine ⟨{ r.expandFaceStorage with nF := r.nF + 1, nFFill := r.nFFill + 1 }, m0.expandFaceStorage, by rw [fe],
            .step A.grown (by rw [← a4]; exact e1'), rfl, rfl, rfl, ?_, ?_, ?_, ?_,
            ⟨rfl, rfl, rfl, rfl⟩, ⟨rfl, rfl, rfl⟩, ⟨rfl, rfl, rfl⟩, by simp only; omega,
            by simp only; omega, rfl, rfl⟩
          · intro i hi
            have l0 := (A.grown.heLive i).2 hi
            have fi := A.fc i hi
            have hlt : i < r.nHeFill := by rw [A.heFill]; have := hi.1; omega
            have hlt0 := l0.1
            have hnn : r.heNext i ≠ INV := by rw [A.nx]; exact hi.2
            have hnn0 := l0.2
            have hreg : r.nFFill ≤ m0.heFace i ↔ m0.nFFill ≤ m0.heFace i := by
              constructor
              · intro h'; omega
              · intro h'; have := hv0.face_ext_region l0 h'; omega
            unfold expandFaceStorage
            simp only [hlt, hlt0, hnn, hnn0, ne_eq, not_false_eq_true, true_and, fi, hreg, a4]
          · unfold expandFaceStorage
            simp only [A.fh, a4, a5, g7.2.2.2]
          · show r.nFCap * 2 = m0.nFCap * 2; rw [a4]
          · show _ ≤ m0.nFCap * 2; omega
    rcases key with ⟨h1, lim⟩ | ⟨r1, m1, h1, G, p1, p2, p3, p4, p5, p6, p7, p8, p9, p10, p11, p12, p13, p14⟩
    · left; rw [h1]; exact ⟨rfl, lim⟩
    rw [h1]; simp only
    have b1 := A.heFill; have b2 := A.eFill; have b3 := A.heCap; have b4 := A.eCap
    rcases getNewEdgeTriple_ok (m := r1) (by omega) (by omega) (by omega) (by omega) false with ⟨h2, lim⟩ | ⟨hcap, ecap, h2, q1, q2, q3⟩
    · left; rw [h2]; refine ⟨rfl, lim.mono ?_ ?_ ?_⟩
      · have := A.vFill; omega
      · omega
      · have := A.bl; omega
    right
    rw [h2]; simp only [Bool.false_eq_true, if_false]
    refine ⟨_, _, _, _, m1, rfl, ?_⟩
    have tw : twin r1.nHeFill = m.nHeFill + 2 * n + 1 := by
      rw [p8.1, b1, heven, ← Nat.mul_add, twin_two_mul]
    have c1 := A.he; have c2 := A.int; have c3 := A.e; have c4 := A.vFill; have c5 := A.vCap
    have c6 := A.v; have c7 := A.blFill; have c8 := A.bl
    constructor
    case grown => exact G
    case nx => exact p1.trans A.nx
    case vt => exact p2.trans A.vt
    case vh => exact p3.trans A.vh
    case fc => exact p4
    case fh => exact p5
    case fcap => exact p6
    case hfa =>
      intro k hk; rw [upd_apply]; split_ifs with e
      · rw [e]
      · exact A.hfa k (by omega)
    case hle =>
      intro k hk; rw [upd_apply]; split_ifs with e
      · rw [e, p8.1, b1]
      · exact A.hle k (by omega)
    case htr =>
      intro k hk; rw [upd_apply]
      by_cases e : k = n
      · rw [e, if_pos rfl, tw]
      · rw [if_neg, A.htr k (by omega)]
        intro h'
        rw [Nat.mod_eq_of_lt (show k + 1 < d by omega)] at h'
        by_cases e2 : n + 1 < d
        · rw [Nat.mod_eq_of_lt e2] at h'; omega
        · rw [show n + 1 = d by omega, Nat.mod_self] at h'; omega
    all_goals first | omega | (simp only; omega)

/-- The connecting loop after `n` iterations, pointwise. -/
theorem ivWrite_ok {r : Mesh} {c d : ℕ} {fa le tr b : ℕ → ℕ}
    (sep : (∀ j < d, ∀ k < d, le j ≠ tr k ∧ le j ≠ b k ∧ tr j ≠ b k))
    (li : ∀ j < d, ∀ k < d, le j = le k → j = k) (ti : ∀ j < d, ∀ k < d, tr j = tr k → j = k)
    (bi : ∀ j < d, ∀ k < d, b j = b k → j = k) (fi : ∀ j < d, ∀ k < d, fa j = fa k → j = k)
    (hnl : ∀ j < d, ∀ k < d, r.heNext (b j) ≠ le k ∧ r.heNext (b j) ≠ tr k) : ∀ n ≤ d,
    let w := ivWrite r c fa le tr b n
    (∀ k < n, w.heNext (le k) = tr k ∧ w.heNext (tr k) = b k ∧ w.heNext (b k) = le k) ∧
    (∀ i, (∀ k < n, i ≠ le k ∧ i ≠ tr k ∧ i ≠ b k) → w.heNext i = r.heNext i) ∧
    (∀ k < n, w.heVertex (le k) = r.heVertex (r.heNext (b k)) ∧ w.heVertex (tr k) = c) ∧
    (∀ i, (∀ k < n, i ≠ le k ∧ i ≠ tr k) → w.heVertex i = r.heVertex i) ∧
    (∀ k < n, w.heFace (le k) = fa k ∧ w.heFace (tr k) = fa k ∧ w.heFace (b k) = fa k) ∧
    (∀ i, (∀ k < n, i ≠ le k ∧ i ≠ tr k ∧ i ≠ b k) → w.heFace i = r.heFace i) ∧
    (∀ k < n, w.fHalfedge (fa k) = b k) ∧
    (∀ i, (∀ k < n, i ≠ fa k) → w.fHalfedge i = r.fHalfedge i) ∧
    (∃ nx vt fc fh, w = { r with heNext := nx, heVertex := vt, heFace := fc, fHalfedge := fh }) := by
  intro n
  induction n with
  | zero => intro _; simp [ivWrite]; exact ⟨_, _, _, _, rfl⟩
  | succ n ih =>
    intro hn
    obtain ⟨i1, i2, i3, i4, i5, i6, i7, i8, ⟨nx, vt, fc, fh, i9⟩⟩ := ih (by omega)
    have hnd : n < d := by omega
    have kk : ∀ k, k < n + 1 → k = n ∨ (k < n ∧ k < d ∧ k ≠ n) := by intro k hk; omega
    have lt_of : ∀ {k}, k < n → k < d ∧ k ≠ n := by intro k hk; omega
    have hw1 : ivWrite r c fa le tr b (n + 1) = ivStep (ivWrite r c fa le tr b n) c (fa n) (le n) (tr n) (b n) := rfl
    intro w
    rw [show w = _ from hw1]
    clear w hw1
    generalize hw : ivWrite r c fa le tr b n = w0 at *
    have nb : w0.heNext (b n) = r.heNext (b n) := by
      apply i2; intro k hk; obtain ⟨h1, h2⟩ := lt_of hk
      exact ⟨(sep k h1 n hnd).2.1.symm, (sep k h1 n hnd).2.2.symm, fun e => h2 (bi n hnd k h1 e).symm⟩
    have vb : w0.heVertex (r.heNext (b n)) = r.heVertex (r.heNext (b n)) := by
      apply i4; intro k hk; obtain ⟨h1, h2⟩ := lt_of hk
      exact hnl n hnd k h1
    have s := sep n hnd n hnd
    simp only [ivStep, upd_apply]
    refine ⟨?_, ?_, ?_, ?_, ?_, ?_, ?_, ?_, ?_⟩
    · intro k hk
      rcases kk k hk with rfl | ⟨h, h1, h2⟩
      · simp [s.1, s.2.1, s.2.2, s.1.symm, s.2.1.symm, s.2.2.symm]
      · obtain ⟨j1, j2, j3⟩ := i1 k h
        rw [if_neg (sep k h1 n hnd).2.1, if_neg (sep k h1 n hnd).1, if_neg (fun e => h2 (li k h1 n hnd e)),
          if_neg (sep k h1 n hnd).2.2, if_neg (fun e => h2 (ti k h1 n hnd e)), if_neg (sep n hnd k h1).1.symm,
          if_neg (fun e => h2 (bi k h1 n hnd e)), if_neg (sep n hnd k h1).2.2.symm, if_neg (sep n hnd k h1).2.1.symm]
        exact ⟨j1, j2, j3⟩
    · intro i hi
      obtain ⟨h1, h2, h3⟩ := hi n (by omega)
      rw [if_neg h3, if_neg h2, if_neg h1]
      exact i2 i (fun k hk => hi k (by omega))
    · intro k hk
      rcases kk k hk with rfl | ⟨h, h1, h2⟩
      · rw [if_neg s.1, if_pos rfl, if_pos rfl, if_neg s.2.1.symm, nb, vb]; simp
      · obtain ⟨j1, j2⟩ := i3 k h
        rw [if_neg (sep k h1 n hnd).1, if_neg (fun e => h2 (li k h1 n hnd e)),
          if_neg (fun e => h2 (ti k h1 n hnd e)), if_neg (sep n hnd k h1).1.symm]
        exact ⟨j1, j2⟩
    · intro i hi
      obtain ⟨h1, h2⟩ := hi n (by omega)
      rw [if_neg h2, if_neg h1]
      exact i4 i (fun k hk => hi k (by omega))
    · intro k hk
      rcases kk k hk with rfl | ⟨h, h1, h2⟩
      · simp
      · obtain ⟨j1, j2, j3⟩ := i5 k h
        rw [if_neg (sep k h1 n hnd).2.1, if_neg (sep k h1 n hnd).1, if_neg (fun e => h2 (li k h1 n hnd e)),
          if_neg (sep k h1 n hnd).2.2, if_neg (fun e => h2 (ti k h1 n hnd e)), if_neg (sep n hnd k h1).1.symm,
          if_neg (fun e => h2 (bi k h1 n hnd e)), if_neg (sep n hnd k h1).2.2.symm, if_neg (sep n hnd k h1).2.1.symm]
        exact ⟨j1, j2, j3⟩
    · intro i hi
      obtain ⟨h1, h2, h3⟩ := hi n (by omega)
      rw [if_neg h3, if_neg h2, if_neg h1]
      exact i6 i (fun k hk => hi k (by omega))
    · intro k hk
      rcases kk k hk with rfl | ⟨h, h1, h2⟩
      · simp
      · rw [if_neg (fun e => h2 (fi k h1 n hnd e))]; exact i7 k h
    · intro i hi
      rw [if_neg (hi n (by omega))]; exact i8 i (fun k hk => hi k (by omega))
    · subst i9; exact ⟨_, _, _, _, rfl⟩

theorem iv_spec {m : Mesh} (hv : m.Valid) {f : ℕ} (hf : m.fLive f) (hint : f < m.nFFill) :
    (m.insertVertex f = .error .oom ∧ ∃ d, (∀ L : Finset ℕ, (∀ i, i ∈ L ↔ m.heLive i ∧ m.heFace i = f) → L.card = d) ∧
      m.nearLimit d) ∨
    ∃ m' m0 d, m.insertVertex f = .ok (m', m.nVFill) ∧ Grown m m0 ∧
      IvSpec m0 m' f d (fun j => m.heNext^[j] (m.fHalfedge f)) := by
  obtain ⟨l0, e0⟩ := hv.f_he f hf
  have vl := hv.vertex_live _ l0
  have hle := hv.v_cap
  unfold insertVertex
  rcases getNewVertex_ok (m := m) (by have := vl.1; omega) hle.1 hle.2 with ⟨h, lim⟩ | ⟨vc, h, h1, h2⟩
  · left; rw [h]
    obtain ⟨l, -, hnd, hmem, -⟩ := hv.faceHalfedges_ok hf
    refine ⟨rfl, l.length, fun L hL => ?_, lim.mono (by omega) (by omega) (by omega)⟩
    rw [← List.toFinset_card_of_nodup hnd]; congr 1; ext i; rw [hL, List.mem_toFinset, hmem]
  rw [h]; simp only
  obtain ⟨k, hk, hhit, hmin, hok⟩ := orbitList_ok (hv.back_next l0) (fun z hz => (hv.live_of_orb_next l0 hz).1)
  have hfh : faceHalfedges { m with nVCap := vc, nVFill := m.nVFill + 1, nV := m.nV + 1 } f =
      .ok ((List.range (k+1)).map (fun j => m.heNext^[j] (m.fHalfedge f))) := hok
  rw [hfh]; simp only [List.length_map, List.length_range]
  rcases ivAlloc_ok hv hint rfl ⟨h1, h2⟩ (d := k + 1) (k + 1) le_rfl with ⟨e, lim⟩ | ⟨r, fa, le, tr, m0, e, A⟩
  · left; rw [e]
    refine ⟨rfl, k + 1, fun L hL => ?_, lim⟩
    obtain ⟨l, hl, hnd, hmem, -⟩ := hv.faceHalfedges_ok hf
    have el : l = (List.range (k+1)).map (fun j => m.heNext^[j] (m.fHalfedge f)) := by
      unfold faceHalfedges at hl; rw [hok] at hl; injection hl with hl; exact hl.symm
    have : l.length = k + 1 := by rw [el]; simp
    rw [← this, ← List.toFinset_card_of_nodup hnd]; congr 1; ext i; rw [hL, List.mem_toFinset, hmem]
  right
  rw [e]; simp only
  obtain ⟨g1, g2, g3, g4, g5, g6, g7, g8⟩ := A.grown.facts
  have hv0 := A.grown.valid hv
  have hrf : r.fHalfedge f = m.fHalfedge f := by rw [A.fh, A.grown.fHalfedge hv hint]
  have hfh2 : r.faceHalfedges f = .ok ((List.range (k+1)).map (fun j => m.heNext^[j] (m.fHalfedge f))) := by
    unfold faceHalfedges
    rw [hrf, A.nx]
    have : k < r.nHeFill := by rw [A.heFill]; omega
    exact orbitAux_ok this hhit hmin
  rw [hfh2]; simp only
  have hb : ∀ j < k + 1, (((List.range (k+1)).map (fun j => m.heNext^[j] (m.fHalfedge f))).getD j INV) =
      m.heNext^[j] (m.fHalfedge f) := by
    intro j hj
    simp [List.getD, hj]
  generalize hbb : (fun i => ((List.range (k+1)).map (fun j => m.heNext^[j] (m.fHalfedge f))).getD i INV) = bb
  have hb' : ∀ j < k + 1, bb j = m.heNext^[j] (m.fHalfedge f) := by intro j hj; rw [← hbb]; exact hb j hj
  have blive : ∀ j, m.heLive (m.heNext^[j] (m.fHalfedge f)) := fun j => hv.live_of_orb_next l0 ⟨j, rfl⟩
  have binj : ∀ i j, i < k + 1 → j < k + 1 → m.heNext^[i] (m.fHalfedge f) = m.heNext^[j] (m.fHalfedge f) → i = j := by
    intro i j hi hj e
    have nd := orbit_range_nodup hhit hmin
    rw [List.nodup_map_iff_inj_on List.nodup_range] at nd
    exact nd i (by simpa using hi) j (by simpa using hj) e
  have hd : 0 < k + 1 := by omega
  have prs : ∀ j < k + 1, (pr (k + 1) j + 1) % (k + 1) = j := by
    intro j hj
    rcases Nat.eq_zero_or_pos j with rfl | h
    · rw [pr_zero hd]; simp
    · obtain ⟨i, rfl⟩ : ∃ i, j = i + 1 := ⟨j - 1, by omega⟩
      rw [pr_succ hj, Nat.mod_eq_of_lt hj]
  have htr : ∀ j < k + 1, tr j = m.nHeFill + 2 * pr (k + 1) j + 1 := by
    intro j hj
    have := A.htr (pr (k + 1) j) (pr_lt hd)
    rwa [prs j hj] at this
  have prinj : ∀ i < k + 1, ∀ j < k + 1, pr (k + 1) i = pr (k + 1) j → i = j := by
    intro i hi j hj e
    rw [← prs i hi, ← prs j hj, e]
  have hW := ivWrite_ok (r := r) (c := m.nVFill) (d := k + 1) (fa := fa) (le := le) (tr := tr) (b := bb)
    (by
      intro i hi j hj
      have l1 := (blive j).1
      rw [A.hle i hi, htr i hi, htr j hj, hb' j hj]
      refine ⟨by omega, by omega, by omega⟩)
    (by intro i hi j hj e; rw [A.hle i hi, A.hle j hj] at e; omega)
    (by intro i hi j hj e; rw [htr i hi, htr j hj] at e; exact prinj i hi j hj (by omega))
    (by intro i hi j hj e; rw [hb' i hi, hb' j hj] at e; exact binj i j hi hj e)
    (by intro i hi j hj e; rw [A.hfa i hi, A.hfa j hj] at e; exact fanFace_inj hint e)
    (by
      intro i hi j hj
      have l1 := (hv.next_live _ (blive i)).1
      rw [A.nx, A.hle j hj, htr j hj, hb' i hi]
      refine ⟨by omega, by omega⟩) (k + 1) le_rfl
  simp only at hW
  generalize hwd : ivWrite r m.nVFill fa le tr bb (k + 1) = w at *
  obtain ⟨w1, w2, w3, w4, w5, w6, w7, w8, ⟨nx, vt, fc, fh, w9⟩⟩ := hW
  have wne : ∀ i < m.nHeFill, (∀ j < k + 1, i ≠ m.heNext^[j] (m.fHalfedge f)) →
      ∀ j < k + 1, i ≠ le j ∧ i ≠ tr j ∧ i ≠ bb j := by
    intro i hi hne j hj
    rw [A.hle j hj, htr j hj, hb' j hj]
    exact ⟨by omega, by omega, hne j hj⟩
  have fan : ∀ j, m0.fanFace f j = m.fanFace f j := by intro j; unfold fanFace; rw [g7.2.1]
  have fint : ¬ m.ext (m.fHalfedge f) := by unfold ext; rw [e0]; omega
  refine ⟨{ w with vHalfedge := upd w.vHalfedge m.nVFill (tr 0) }, m0, k + 1, rfl, A.grown, ?_⟩
  constructor
  case hd => omega
  case hint => rw [g7.2.1]; exact hint
  case bsucc => intro j; rw [g1, Function.iterate_succ_apply']
  case bper => exact hhit
  case binj => exact binj
  case bmem =>
    intro i
    rw [A.grown.heLive]
    have : (∃ j < k + 1, i = m.heNext^[j] (m.fHalfedge f)) ↔ Orb m.heNext (m.fHalfedge f) i := by
      rw [← orbit_range_mem hhit, List.mem_map]
      constructor
      · rintro ⟨j, hj, e⟩; exact ⟨j, by simpa using hj, e.symm⟩
      · rintro ⟨j, hj, e⟩; exact ⟨j, by simpa using hj, e.symm⟩
    rw [this]
    constructor
    · rintro ⟨a, b⟩
      have hni : ¬ m.ext i := by
        rw [← A.grown.ext]; unfold ext; rw [b, g7.2.1]; omega
      rw [A.grown.face_int hni] at b
      exact (hv.face_iff _ _ l0 a).1 (by rw [e0, b])
    · intro o
      have li := hv.live_of_orb_next l0 o
      have fi := (hv.face_iff _ _ l0 li).2 o
      refine ⟨li, ?_⟩
      rw [A.grown.face_int, ← fi, e0]
      unfold ext; rw [← fi, e0]; omega
  case next_l => intro j hj; rw [g4.2.1]; have := (w1 j hj).1; rwa [A.hle j hj, htr j hj] at this
  case next_q =>
    intro j hj
    obtain ⟨i, hi, rfl⟩ := pr_surj hj
    rw [g4.2.1]
    have := (w1 i hi).2.1
    rw [htr i hi, hb' i hi] at this
    show w.heNext _ = _
    rw [this]
    rcases Nat.eq_zero_or_pos i with rfl | h
    · rw [pr_zero hd]; exact hhit.symm
    · obtain ⟨i, rfl⟩ : ∃ i', i = i' + 1 := ⟨i - 1, by omega⟩
      rw [pr_succ hi]
  case next_b => intro j hj; rw [g4.2.1]; have := (w1 j hj).2.2; rwa [A.hle j hj, hb' j hj] at this
  case next_o =>
    intro i hi hne; rw [g4.2.1] at hi
    have := w2 i (wne i hi hne); rw [A.nx, ← g1] at this; exact this
  case v_l =>
    intro j hj; rw [g4.2.1, g2]
    have := (w3 j hj).1
    rw [A.hle j hj, hb' j hj, A.nx, A.vt] at this
    show w.heVertex _ = _
    rw [this, Function.iterate_succ_apply' m.heNext]
  case v_q =>
    intro j hj
    obtain ⟨i, hi, rfl⟩ := pr_surj hj
    rw [g4.2.1, g5.2.1]
    have := (w3 i hi).2; rwa [htr i hi] at this
  case v_o =>
    intro i hi; rw [g4.2.1] at hi
    have := w4 i (fun j hj => by rw [A.hle j hj, htr j hj]; exact ⟨by omega, by omega⟩)
    rw [A.vt, ← g2] at this; exact this
  case f_l => intro j hj; rw [g4.2.1, fan]; have := (w5 j hj).1; rwa [A.hle j hj, A.hfa j hj] at this
  case f_q => intro j hj; rw [g4.2.1, fan]; have := (w5 j hj).2.1; rwa [htr j hj, A.hfa j hj] at this
  case f_b => intro j hj; rw [fan]; have := (w5 j hj).2.2; rwa [hb' j hj, A.hfa j hj] at this
  case f_o =>
    intro i hi hne
    have hi' := (A.grown.heLive i).1 hi
    have := w6 i (wne i hi'.1 hne)
    rw [A.fc i hi'] at this; exact this
  case fh => intro j hj; rw [fan]; have := w7 j hj; rwa [A.hfa j hj, hb' j hj] at this
  case fh_o =>
    intro x hx
    have := w8 x (fun j hj => by rw [A.hfa j hj, ← fan]; exact hx j hj)
    rw [A.fh] at this; exact this
  case vh =>
    rw [g5.2.1, g4.2.1]
    simp only [upd_apply, if_true]
    rw [htr 0 hd, pr_zero hd]
  case vh_o =>
    intro v hne; rw [g5.2.1] at hne
    simp only [upd_apply]
    rw [if_neg hne, w9, A.vh, g3]
  all_goals
    have c1 := A.heFill
    have c2 := A.heCap
    have c3 := A.eFill
    have c4 := A.eCap
    have c5 := A.vFill
    have c6 := A.vCap
    have c7 := A.fFill
    have c8 := A.blFill
    have c9 := A.he
    have c10 := A.int
    have c11 := A.e
    have c12 := A.v
    have c13 := A.fcount
    have c14 := A.bl
    have c15 := A.space
    have c16 := A.fcap
    subst w9
    first | omega | (simp only; omega)

end Mesh
end GC
