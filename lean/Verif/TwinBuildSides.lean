import Verif.TwinBuild
import Verif.MeshBuildFinal

/-! # The constructor from polygons and twins: lemmas about the first part (manifold_surface_mesh.cpp:302-358) -/

namespace GC.Mesh

/-- The position that the twin list gives for a side. -/
def twinAt (twins : List (List (ℕ × ℕ))) (c : ℕ × ℕ) : ℕ × ℕ := (twins.getD c.1 []).getD c.2 (0, 0)

/-- The twin list matches the polygon list: it has the same shape, twins are mutual, different and run in opposite
directions, and no side joins a vertex to itself.  Sides without twin have `INVALID_IND` twice. -/
structure Glued (polys : List (List ℕ)) (twins : List (List (ℕ × ℕ))) : Prop where
  len : polys.length = twins.length
  shape : ∀ f < polys.length, (polyAt polys f).length = (twins.getD f []).length
  deg : ∀ p ∈ polys, 3 ≤ p.length
  loop : ∀ c, IsCorner polys c → cornerV polys c ≠ cornerV polys (cornerNext polys c)
  pair : ∀ c, IsCorner polys c → twinAt twins c = (INV, INV) ∨
    IsCorner polys (twinAt twins c) ∧ twinAt twins (twinAt twins c) = c ∧ twinAt twins c ≠ c ∧
      cornerV polys (twinAt twins c) = cornerV polys (cornerNext polys c)

/-- The sides before place `I` of face `F`. -/
def Before (polys : List (List ℕ)) (F I : ℕ) (k : ℕ × ℕ) : Prop := IsCorner polys k ∧ (k.1 < F ∨ k.1 = F ∧ k.2 < I)

/-- The sides before place `I` of face `F`, `n` of them, have been entered; faces before `F` are closed. -/
structure TInv (polys : List (List ℕ)) (twins : List (List (ℕ × ℕ))) (nV F I n : ℕ) (s : PolySt) : Prop where
  he : s.m.nHe = 2 * s.m.nEFill
  hef : s.m.nHeFill = 2 * s.m.nEFill
  e : s.m.nE = s.m.nEFill
  cap : s.m.nHeCap = 2 * s.m.nECap ∧ s.m.nEFill ≤ s.m.nECap ∧ s.m.nECap ≤ 2 * s.m.nEFill ∧ s.m.nHeCap < INV
  few : s.m.nEFill ≤ n
  other : s.m.nV = nV ∧ s.m.nF = polys.length ∧ s.m.nBL = 0
  dom : ∀ k, s.look k ≠ none ↔ Before polys F I k
  inj : ∀ k k' h, s.look k = some h → s.look k' = some h → k = k'
  vert : ∀ k h, s.look k = some h → h < 2 * s.m.nEFill ∧ s.m.heVertex h = cornerV polys k ∧
    s.m.heVertex (twin h) = cornerV polys (cornerNext polys k)
  pair : ∀ k k' h, s.look k = some h → s.look k' = some (twin h) → k' = twinAt twins k
  pair' : ∀ k h t, s.look k = some h → s.look (twinAt twins k) = some t → t = twin h
  all : ∀ h < 2 * s.m.nEFill, (∃ k, s.look k = some h) ∨
    (s.m.heFace h = INV ∧ s.m.heNext h = INV ∧ ∃ k, s.look k = some (twin h) ∧ s.look (twinAt twins k) = none)
  even : ∀ e < s.m.nEFill, ∃ k, s.look k = some (2 * e)
  vhe : ∀ v, (s.m.vHalfedge v = INV ∧ ∀ k, Before polys F I k → cornerV polys k ≠ v) ∨
    ∃ k, s.look k = some (s.m.vHalfedge v) ∧ cornerV polys k = v
  face : ∀ k h, s.look k = some h → s.m.heFace h = k.1
  next : ∀ f i h g, s.look (f, i) = some h → s.look (f, i + 1) = some g → s.m.heNext h = g
  last : ∀ f i h g, s.look (f, i) = some h → f < F → i + 1 = (polyAt polys f).length → s.look (f, 0) = some g → s.m.heNext h = g
  first : ∀ f h, s.look (f, 0) = some h → s.m.fHalfedge f = h

/-- What `findHeAt` returns. -/
structure MidAt (s : PolySt) (key : ℕ × ℕ) (a b : ℕ) (m : Mesh) (h : ℕ) : Prop where
  he : m.nHe = 2 * m.nEFill
  hef : m.nHeFill = 2 * m.nEFill
  e : m.nE = m.nEFill
  cap : m.nHeCap = 2 * m.nECap ∧ m.nEFill ≤ m.nECap ∧ m.nECap ≤ 2 * m.nEFill ∧ m.nHeCap < INV
  few : s.m.nEFill ≤ m.nEFill ∧ m.nEFill ≤ s.m.nEFill + 1
  other : m.nV = s.m.nV ∧ m.nF = s.m.nF ∧ m.nBL = s.m.nBL
  arr : m.vHalfedge = s.m.vHalfedge ∧ m.fHalfedge = s.m.fHalfedge
  lt : h < 2 * m.nEFill
  vert : m.heVertex h = a ∧ m.heVertex (twin h) = b
  old : ∀ g < 2 * s.m.nEFill, m.heVertex g = s.m.heVertex g ∧ m.heFace g = s.m.heFace g ∧ m.heNext g = s.m.heNext g
  found : (s.look key = some (twin h) ∧ m.nEFill = s.m.nEFill) ∨
    (s.look key = none ∧ h = 2 * s.m.nEFill ∧ twin h = 2 * s.m.nEFill + 1 ∧ m.nEFill = s.m.nEFill + 1 ∧
      m.heFace (twin h) = INV ∧ m.heNext (twin h) = INV)

theorem findHeAt_ok {polys : List (List ℕ)} {twins : List (List (ℕ × ℕ))} {nV F I n : ℕ} {s : PolySt}
    (hC : TInv polys twins nV F I n s) (key : ℕ × ℕ) (a b : ℕ)
    (hk : ∀ t, s.look key = some t → cornerV polys key = b ∧ cornerV polys (cornerNext polys key) = a) :
    (∃ m h, findHeAt s key a b = .ok (m, h) ∧ MidAt s key a b m h) ∨
      (findHeAt s key a b = .error .oom ∧ INV ≤ 4 * (s.m.nEFill + 1)) := by
  unfold findHeAt
  cases ht : s.look key with
  | some t =>
    left
    obtain ⟨hlt, h1, h2⟩ := hC.vert _ _ ht
    obtain ⟨h3, h4⟩ := hk t ht
    exact ⟨_, _, rfl, hC.he, hC.hef, hC.e, hC.cap, ⟨le_rfl, by omega⟩, ⟨rfl, rfl, rfl⟩, ⟨rfl, rfl⟩, twin_lt_even hlt,
      ⟨h2.trans h4, by rw [twin_twin]; exact h1.trans h3⟩, fun g _ => ⟨rfl, rfl, rfl⟩, .inl ⟨by rw [twin_twin]; exact ht, rfl⟩⟩
  | none =>
    obtain ⟨c1, c2, c3, c4⟩ := hC.cap
    have hef := hC.hef
    have htw : twin s.m.nHeFill = 2 * s.m.nEFill + 1 := by rw [hef, twin_two_mul]
    unfold getNewEdgeTriple
    by_cases hg : s.m.nHeFill + 1 < s.m.nHeCap
    · left
      simp only [hg, not_true_eq_false, if_false, false_and]
      rw [if_neg (by omega), if_neg (by omega), if_neg (by omega)]
      refine ⟨_, _, rfl, ?_⟩
      refine ⟨by simp only; have := hC.he; omega, by simp only; omega, by simp only; have := hC.e; omega, ?_, ?_, ⟨rfl, rfl, rfl⟩,
        ⟨rfl, rfl⟩, ?_, ?_, ?_, .inr ⟨ht, hef, htw, rfl, upd_same _ _ _, upd_same _ _ _⟩⟩
      · simp only; omega
      · simp only; omega
      · simp only; omega
      · simp only
        refine ⟨?_, upd_same _ _ _⟩
        rw [upd_ne _ _ (by rw [htw]; omega), upd_same]
      · intro g hg
        simp only
        refine ⟨?_, ?_, ?_⟩ <;> rw [upd_ne _ _ (by rw [htw]; omega), upd_ne _ _ (by omega)]
    · simp only [hg, not_false_eq_true, if_true, not_true_eq_false, false_and, if_false]
      by_cases ho : INV ≤ max (s.m.nHeCap * 2) 2
      · right
        rw [if_pos ho]
        refine ⟨rfl, ?_⟩
        have : 4 < INV := by decide
        omega
      · left
        rw [if_neg ho, if_neg (by omega)]
        refine ⟨_, _, rfl, ?_⟩
        refine ⟨by simp only; have := hC.he; omega, by simp only; omega, by simp only; have := hC.e; omega, ?_, ?_, ⟨rfl, rfl, rfl⟩,
          ⟨rfl, rfl⟩, ?_, ?_, ?_, .inr ⟨ht, hef, htw, rfl, upd_same _ _ _, upd_same _ _ _⟩⟩
        · simp only; omega
        · simp only; omega
        · simp only; omega
        · simp only
          refine ⟨?_, upd_same _ _ _⟩
          rw [upd_ne _ _ (by rw [htw]; omega), upd_same]
        · intro g hg
          simp only
          refine ⟨?_, ?_, ?_⟩ <;> rw [upd_ne _ _ (by rw [htw]; omega), upd_ne _ _ (by omega)]

variable {polys : List (List ℕ)} {twins : List (List (ℕ × ℕ))} {nV F I n : ℕ} {s : PolySt}

/-- `prev` in the loop over the sides. -/
def PrevIs (s : PolySt) (F I : ℕ) (p : Option ℕ) : Prop := (I = 0 ∧ p = none) ∨ ∃ i q, I = i + 1 ∧ p = some q ∧ s.look (F, i) = some q

theorem Before.succ {k : ℕ × ℕ} (hc : IsCorner polys (F, I)) : Before polys F (I + 1) k ↔ Before polys F I k ∨ k = (F, I) := by
  obtain ⟨f, i⟩ := k
  unfold Before
  simp only [Prod.mk.injEq]
  constructor
  · rintro ⟨a, b | ⟨b, c⟩⟩
    · exact .inl ⟨a, .inl b⟩
    · by_cases e : i = I
      · exact .inr ⟨b, e⟩
      · exact .inl ⟨a, .inr ⟨b, by omega⟩⟩
  · rintro (⟨a, b | b⟩ | ⟨rfl, rfl⟩)
    · exact ⟨a, .inl b⟩
    · exact ⟨a, .inr ⟨b.1, by omega⟩⟩
    · exact ⟨hc, .inr ⟨rfl, by omega⟩⟩

theorem addSideAt_ok (hG : Glued polys twins) (hF : polys.length < INV) (hC : TInv polys twins nV F I n s)
    (hc : IsCorner polys (F, I)) {p : Option ℕ} (hp : PrevIs s F I p) :
    (∃ s' q, addSideAt (polyAt polys F) (twins.getD F []) F (s, p) I = .ok (s', some q) ∧
      TInv polys twins nV F (I + 1) (n + 1) s' ∧ s'.look (F, I) = some q) ∨
    (addSideAt (polyAt polys F) (twins.getD F []) F (s, p) I = .error .oom ∧ INV ≤ 4 * (n + 1)) := by
  have hl0 : s.look (F, I) = none := by
    by_contra h
    obtain ⟨-, h | ⟨-, h⟩⟩ := (hC.dom _).1 h
    · exact absurd h (lt_irrefl _)
    · exact absurd h (lt_irrefl _)
  have hbI : ∀ k h, s.look k = some h → Before polys F I k := fun k h e => (hC.dom k).1 (by rw [e]; simp)
  unfold addSideAt
  have hne : (polyAt polys F).getD I 0 ≠ (polyAt polys F).getD ((I + 1) % (polyAt polys F).length) 0 := hG.loop _ hc
  simp only
  rw [if_neg hne, if_neg (by simpa using hl0)]
  have hkey : ∀ t, s.look ((twins.getD F []).getD I (0, 0)) = some t →
      cornerV polys ((twins.getD F []).getD I (0, 0)) = (polyAt polys F).getD ((I + 1) % (polyAt polys F).length) 0 ∧
      cornerV polys (cornerNext polys ((twins.getD F []).getD I (0, 0))) = (polyAt polys F).getD I 0 := by
    intro t ht
    have hB := (hbI _ _ ht).1
    rcases hG.pair _ hc with h | ⟨h1, h2, h3, h4⟩
    · exfalso
      have : (twins.getD F []).getD I (0, 0) = (INV, INV) := h
      rw [this] at hB
      exact absurd hB.1 (by simp only; omega)
    · refine ⟨h4, ?_⟩
      rcases hG.pair _ h1 with h | ⟨-, -, -, h5⟩
      · rw [h2] at h
        rw [h] at hc
        exact absurd hc.1 (by simp only; omega)
      · rw [h2] at h5
        exact h5.symm
  -- the key of the twin
  have hK : (twins.getD F []).getD I (0, 0) = twinAt twins (F, I) := rfl
  have hback : ∀ k, IsCorner polys k → twinAt twins k = (F, I) → k = twinAt twins (F, I) := by
    intro k hk e
    rcases hG.pair k hk with h | ⟨-, h2, -, -⟩
    · rw [h] at e
      rw [← e] at hc
      exact absurd hc.1 (by simp only; omega)
    · rw [← e, h2]
  have hself : twinAt twins (F, I) ≠ (F, I) := by
    rcases hG.pair _ hc with h | ⟨-, -, h3, -⟩
    · rw [h]
      intro e
      have h1 := congrArg Prod.fst e
      have h2 := hc.1
      simp only at h1 h2
      omega
    · exact h3
  rcases findHeAt_ok hC ((twins.getD F []).getD I (0, 0)) ((polyAt polys F).getD I 0)
    ((polyAt polys F).getD ((I + 1) % (polyAt polys F).length) 0) hkey with ⟨m, h, he, hM⟩ | ⟨he, ho⟩
  swap
  · right
    simp only [he]
    refine ⟨rfl, ?_⟩
    have := hC.few
    omega
  left
  simp only [he]
  rw [hK] at hM
  have hfound := hM.found
  have hfew := hM.few
  have hfresh : ∀ k, s.look k ≠ some h := by
    intro k hk
    rcases hfound with ⟨a, -⟩ | ⟨-, a, -⟩
    · have h1 := hC.pair k _ h hk a
      have h2 := hback
      -- `k` would be the present side
      rcases hG.pair k (hbI k h hk).1 with h3 | ⟨h4, h5, -, -⟩
      · rw [← h1] at h3
        have := (hbI _ _ a).1.1
        rw [h3] at this
        simp only at this
        omega
      · rcases hG.pair _ hc with h6 | ⟨-, h6, -, -⟩
        · rw [← h1, h6] at h4
          exact absurd h4.1 (by simp only; omega)
        · rw [← h1, h6] at h5
          rw [← h5, hl0] at hk
          cases hk
    · have := (hC.vert k h hk).1
      omega
  have hlook : ∀ k g, s.look k = some g → g ≠ h ∧ g < 2 * s.m.nEFill := by
    intro k g hk
    exact ⟨fun e => hfresh k (e ▸ hk), (hC.vert _ _ hk).1⟩
  have hpg : ∀ g, p = some g → ∃ i, I = i + 1 ∧ s.look (F, i) = some g := by
    intro g hg
    rcases hp with ⟨-, e⟩ | ⟨i, q, e, e1, e2⟩
    · rw [e] at hg; cases hg
    · rw [e1] at hg; cases hg
      exact ⟨i, e, e2⟩
  have key : ∀ m' : Mesh, m'.heVertex = m.heVertex → m'.heFace = upd m.heFace h F →
      m'.vHalfedge = upd m.vHalfedge (cornerV polys (F, I)) h → m'.nHe = m.nHe → m'.nHeFill = m.nHeFill → m'.nE = m.nE →
      m'.nEFill = m.nEFill → m'.nHeCap = m.nHeCap → m'.nECap = m.nECap → m'.nV = m.nV → m'.nF = m.nF → m'.nBL = m.nBL →
      (∀ g, p ≠ some g → m'.heNext g = m.heNext g) → (∀ q, p = some q → m'.heNext q = h) →
      (∀ f, m'.fHalfedge f = if p = none ∧ f = F then h else m.fHalfedge f) →
      TInv polys twins nV F (I + 1) (n + 1) ⟨m', fun k => if k = (F, I) then some h else s.look k⟩ := by
    intro m' e1 e2 e3 e4 e5 e6 e7 e8 e9 e10 e11 e12 e13 e14 e15
    have hface : ∀ k g, s.look k = some g → m'.heFace g = k.1 := by
      intro k g hk
      obtain ⟨a, b⟩ := hlook k g hk
      rw [e2, upd_ne _ _ a, (hM.old g b).2.1, hC.face k g hk]
    have hnext : ∀ k g, s.look k = some g → p ≠ some g → m'.heNext g = s.m.heNext g := by
      intro k g hk hq
      rw [e13 g hq, (hM.old g (hlook k g hk).2).2.2]
    exact {
      he := by simp only [e4, e7]; exact hM.he
      hef := by simp only [e5, e7]; exact hM.hef
      e := by simp only [e6, e7]; exact hM.e
      cap := by simp only [e7, e8, e9]; exact hM.cap
      few := by
        simp only [e7]
        have := hC.few
        omega
      other := by simp only [e10, e11, e12, hM.other.1, hM.other.2.1, hM.other.2.2]; exact hC.other
      dom := fun k => by
        simp only
        rw [Before.succ hc]
        by_cases hk : k = (F, I)
        · simp [hk]
        · rw [if_neg hk, hC.dom]; simp [hk]
      inj := fun k k' g hk hk' => by
        simp only at hk hk'
        split_ifs at hk hk' with h1 h2 h2
        · rw [h1, h2]
        · cases hk; exact absurd hk' (hfresh _)
        · cases hk'; exact absurd hk (hfresh _)
        · exact hC.inj k k' g hk hk'
      vert := fun k g hk => by
        simp only [e1, e7] at hk ⊢
        split_ifs at hk with hkd
        · cases hk
          rw [hkd]
          exact ⟨hM.lt, hM.vert⟩
        · obtain ⟨a, b, c⟩ := hC.vert k g hk
          exact ⟨by omega, by rw [(hM.old g a).1, b], by rw [(hM.old _ (twin_lt_even a)).1, c]⟩
      pair := fun k k' g hk hk' => by
        simp only at hk hk'
        split_ifs at hk hk' with h1 h2 h2
        · cases hk
          exact absurd (Option.some.inj hk') (Ne.symm (twin_ne _))
        · cases hk
          rcases hfound with ⟨a, -⟩ | ⟨-, -, a, -⟩
          · rw [h1]; exact hC.inj _ _ _ hk' a
          · have := (hlook _ _ hk').2
            omega
        · have hgh : g = twin h := by rw [← twin_twin g]; exact congrArg twin (Option.some.inj hk').symm
          rcases hfound with ⟨a, -⟩ | ⟨-, -, a, -⟩
          · have := hC.inj _ _ _ (hgh ▸ hk) a
            rw [h2, this]
            rcases hG.pair _ hc with h6 | ⟨-, h6, -, -⟩
            · have := (hbI _ _ a).1.1
              rw [h6] at this
              simp only at this
              omega
            · exact h6.symm
          · have := (hlook _ _ hk).2
            omega
        · exact hC.pair k k' g hk hk'
      pair' := fun k g t hk ht => by
        simp only at hk ht
        split_ifs at hk with h1
        · cases hk
          rw [h1, if_neg hself] at ht
          rcases hfound with ⟨a, -⟩ | ⟨a, -⟩
          · rw [a] at ht
            exact (Option.some.inj ht).symm
          · rw [a] at ht; cases ht
        · split_ifs at ht with h2
          · cases ht
            have hk2 := hback k (hbI k g hk).1 h2
            rcases hfound with ⟨a, -⟩ | ⟨a, -⟩
            · rw [hk2, a] at hk
              rw [← Option.some.inj hk, twin_twin]
            · rw [hk2, a] at hk; cases hk
          · exact hC.pair' k g t hk ht
      all := fun g hg => by
        simp only [e7] at hg ⊢
        by_cases hgh : g = h
        · exact .inl ⟨(F, I), by rw [if_pos rfl, hgh]⟩
        by_cases hgo : g < 2 * s.m.nEFill
        · rcases hC.all g hgo with ⟨k, hk⟩ | ⟨a, b, k, hk, hk'⟩
          · left
            refine ⟨k, ?_⟩
            rw [if_neg, hk]
            rintro rfl
            rw [hl0] at hk
            cases hk
          · right
            have hq : p ≠ some g := by
              intro e
              obtain ⟨i, -, hi⟩ := hpg g e
              have h1 := hC.face _ _ hi
              rw [a] at h1
              have h2 := hc.1
              simp only at h1 h2
              omega
            refine ⟨by rw [e2, upd_ne _ _ hgh, (hM.old g hgo).2.1, a], by rw [e13 g hq, (hM.old g hgo).2.2, b], k, ?_, ?_⟩
            · rw [if_neg, hk]
              rintro rfl
              rw [hl0] at hk
              cases hk
            · rw [if_neg, hk']
              intro e
              have hk2 := hback k (hbI k _ hk).1 e
              rcases hfound with ⟨c, -⟩ | ⟨c, -⟩
              · rw [hk2, c] at hk
                exact hgh (twin_inj (Option.some.inj hk)).symm
              · rw [hk2, c] at hk; cases hk
        · rcases hfound with ⟨-, a⟩ | ⟨a, b, c, d, f1, f2⟩
          · omega
          · right
            have hgt : g = twin h := by omega
            have hq : p ≠ some g := by
              intro e
              obtain ⟨i, -, hi⟩ := hpg g e
              exact hgo (hlook _ _ hi).2
            refine ⟨by rw [e2, upd_ne _ _ hgh, hgt, f1], by rw [e13 g hq, hgt, f2], (F, I), ?_, ?_⟩
            · rw [if_pos rfl, hgt, twin_twin]
            · rw [if_neg hself, a]
      even := fun e he => by
        simp only [e7] at he ⊢
        by_cases ho : e < s.m.nEFill
        · obtain ⟨k, hk⟩ := hC.even e ho
          refine ⟨k, ?_⟩
          rw [if_neg, hk]
          rintro rfl
          rw [hl0] at hk
          cases hk
        · rcases hfound with ⟨-, a⟩ | ⟨-, b, -, d, -, -⟩
          · omega
          · exact ⟨(F, I), by rw [if_pos rfl, b]; congr 1; omega⟩
      vhe := fun v => by
        simp only [e3, hM.arr.1]
        by_cases hv : v = cornerV polys (F, I)
        · right
          exact ⟨(F, I), by rw [if_pos rfl, hv, upd_same], hv.symm⟩
        · rw [upd_ne _ _ hv]
          rcases hC.vhe v with ⟨h3, h4⟩ | ⟨k, h4, h5⟩
          · left
            refine ⟨h3, fun k hk => ?_⟩
            rcases (Before.succ hc).1 hk with hk | rfl
            · exact h4 k hk
            · exact fun e => hv e.symm
          · right
            refine ⟨k, ?_, h5⟩
            rw [if_neg, h4]
            rintro rfl
            rw [hl0] at h4
            cases h4
      face := fun k g hk => by
        simp only at hk ⊢
        split_ifs at hk with h1
        · cases hk
          rw [e2, upd_same, h1]
        · exact hface k g hk
      next := fun f i a b ha hb => by
        simp only at ha hb ⊢
        split_ifs at ha hb with h1 h2 h2
        · simp only [Prod.mk.injEq] at h1 h2
          omega
        · -- the next side has not been entered
          simp only [Prod.mk.injEq] at h1
          obtain ⟨-, h | ⟨-, h⟩⟩ := hbI _ _ hb
          · simp only at h; omega
          · simp only at h; omega
        · cases hb
          simp only [Prod.mk.injEq] at h2
          rcases hp with ⟨q1, q2⟩ | ⟨i', q, q1, q2, q3⟩
          · omega
          · have : i = i' := by omega
            subst this
            rw [h2.1, q3] at ha
            cases ha
            exact e14 _ q2
        · have hq : p ≠ some a := by
            intro e
            obtain ⟨j, hj, hj2⟩ := hpg a e
            have := hC.inj _ _ _ hj2 ha
            simp only [Prod.mk.injEq] at this
            exact h2 (by rw [← this.1, ← this.2, hj])
          rw [hnext _ _ ha hq]
          exact hC.next f i a b ha hb
      last := fun f i a b ha hf hi hb => by
        simp only at ha hb ⊢
        rw [if_neg (fun e => by simp only [Prod.mk.injEq] at e; omega)] at ha hb
        have hq : p ≠ some a := by
          intro e
          obtain ⟨j, hj, hj2⟩ := hpg a e
          have := hC.inj _ _ _ hj2 ha
          simp only [Prod.mk.injEq] at this
          omega
        rw [hnext _ _ ha hq]
        exact hC.last f i a b ha hf hi hb
      first := fun f a ha => by
        simp only at ha ⊢
        rw [e15, hM.arr.2]
        split_ifs at ha with h1
        · cases ha
          simp only [Prod.mk.injEq] at h1
          have hn : p = none := by
            rcases hp with ⟨-, q2⟩ | ⟨i', q, q1, q2, q3⟩
            · exact q2
            · omega
          rw [if_pos ⟨hn, h1.1⟩]
        · rw [if_neg]
          · exact hC.first f a ha
          · rintro ⟨q, rfl⟩
            rcases hp with ⟨q1, -⟩ | ⟨i', q', -, q2, -⟩
            · exact h1 (by rw [q1])
            · rw [q] at q2; cases q2 }
  cases p with
  | none =>
    exact ⟨_, _, rfl, key { { m with heFace := upd m.heFace h F, vHalfedge := upd m.vHalfedge (cornerV polys (F, I)) h } with
      fHalfedge := upd m.fHalfedge F h } rfl rfl rfl rfl rfl rfl rfl rfl rfl rfl rfl rfl (fun g _ => rfl)
      (fun q hq => by cases hq) (fun f => by simp [upd_apply]), by simp⟩
  | some q =>
    exact ⟨_, _, rfl, key { { m with heFace := upd m.heFace h F, vHalfedge := upd m.vHalfedge (cornerV polys (F, I)) h } with
      heNext := upd m.heNext q h } rfl rfl rfl rfl rfl rfl rfl rfl rfl rfl rfl rfl
      (fun g hg => by
        simp only
        rw [upd_ne _ _ (show g ≠ q from fun e => hg (by rw [e]))])
      (fun q' hq => by cases hq; exact upd_same _ _ _) (fun f => by simp), by simp⟩

end GC.Mesh
