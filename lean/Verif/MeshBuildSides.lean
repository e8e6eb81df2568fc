import Verif.MeshBuild

/-! # The manifold polygon constructor: the loop over the faces

Lemmas about the first part of `ManifoldSurfaceMesh(polygons)` (manifold_surface_mesh.cpp:84-143). -/

namespace GC

/-- Invariant rule for a loop whose body may fail. -/
theorem foldlM_inv_err {α σ : Type} {f : σ → α → Res σ} {l : List α} (P : List α → σ → Prop) (E : Err → Prop) {s0 : σ}
    (h0 : P [] s0)
    (step : ∀ p x q s, l = p ++ x :: q → P p s →
      (∃ s', f s x = .ok s' ∧ P (p ++ [x]) s') ∨ ∃ e, f s x = .error e ∧ E e) :
    (∃ s, l.foldlM f s0 = .ok s ∧ P l s) ∨ ∃ e, l.foldlM f s0 = .error e ∧ E e := by
  have key : ∀ (q p : List α) (s : σ), l = p ++ q → P p s →
      (∃ s', q.foldlM f s = .ok s' ∧ P l s') ∨ ∃ e, q.foldlM f s = .error e ∧ E e := by
    intro q
    induction q with
    | nil => intro p s h hP; exact .inl ⟨s, rfl, by simpa [h] using hP⟩
    | cons x q ih =>
      intro p s h hP
      rcases step p x q s h hP with ⟨s', e, hP'⟩ | ⟨e, he, hE⟩
      · rcases ih (p ++ [x]) s' (by simp [h]) hP' with ⟨s'', e', hP''⟩ | ⟨e', he', hE'⟩
        · refine .inl ⟨s'', ?_, hP''⟩
          rw [List.foldlM_cons, e]; exact e'
        · refine .inr ⟨e', ?_, hE'⟩
          rw [List.foldlM_cons, e]; exact he'
      · refine .inr ⟨e, ?_, hE⟩
        rw [List.foldlM_cons, he]; rfl
  exact key l [] s0 rfl h0

namespace Mesh

/-- The sides `ds` have been entered. -/
structure Core (nV nF : ℕ) (ds : List (ℕ × ℕ)) (s : PolySt) : Prop where
  he : s.m.nHe = 2 * s.m.nEFill
  hef : s.m.nHeFill = 2 * s.m.nEFill
  e : s.m.nE = s.m.nEFill
  cap : s.m.nHeCap = 2 * s.m.nECap ∧ s.m.nEFill ≤ s.m.nECap ∧ s.m.nECap ≤ 2 * s.m.nEFill ∧ s.m.nHeCap < INV
  few : s.m.nEFill ≤ ds.length
  other : s.m.nV = nV ∧ s.m.nF = nF ∧ s.m.nBL = 0
  dom : ∀ k, s.look k ≠ none ↔ k ∈ ds
  nodup : ds.Nodup
  ne : ∀ k ∈ ds, k.1 ≠ k.2
  vert : ∀ k h, s.look k = some h → h < 2 * s.m.nEFill ∧ s.m.heVertex h = k.1 ∧ s.m.heVertex (twin h) = k.2
  all : ∀ h < 2 * s.m.nEFill, s.look (s.m.heVertex h, s.m.heVertex (twin h)) = some h ∨
    (s.m.heFace h = INV ∧ s.m.heNext h = INV ∧ s.look (s.m.heVertex h, s.m.heVertex (twin h)) = none)
  even : ∀ e < s.m.nEFill, s.look (s.m.heVertex (2 * e), s.m.heVertex (twin (2 * e))) = some (2 * e)
  vhe : ∀ v, (s.m.vHalfedge v = INV ∧ ∀ k ∈ ds, k.1 ≠ v) ∨ ∃ k ∈ ds, s.look k = some (s.m.vHalfedge v) ∧ k.1 = v

/-- What `findHe` returns. -/
structure Mid (s : PolySt) (d : ℕ × ℕ) (m : Mesh) (h : ℕ) : Prop where
  he : m.nHe = 2 * m.nEFill
  hef : m.nHeFill = 2 * m.nEFill
  e : m.nE = m.nEFill
  cap : m.nHeCap = 2 * m.nECap ∧ m.nEFill ≤ m.nECap ∧ m.nECap ≤ 2 * m.nEFill ∧ m.nHeCap < INV
  few : s.m.nEFill ≤ m.nEFill ∧ m.nEFill ≤ s.m.nEFill + 1
  other : m.nV = s.m.nV ∧ m.nF = s.m.nF ∧ m.nBL = s.m.nBL
  arr : m.vHalfedge = s.m.vHalfedge ∧ m.fHalfedge = s.m.fHalfedge
  lt : h < 2 * m.nEFill
  vert : m.heVertex h = d.1 ∧ m.heVertex (twin h) = d.2
  fresh : ∀ k, s.look k ≠ some h
  old : ∀ g < 2 * s.m.nEFill, m.heVertex g = s.m.heVertex g ∧ m.heFace g = s.m.heFace g ∧ m.heNext g = s.m.heNext g
  new : ∀ g < 2 * m.nEFill, g < 2 * s.m.nEFill ∨ g = h ∨
    (g = twin h ∧ m.heFace g = INV ∧ m.heNext g = INV ∧ s.look (d.2, d.1) = none)
  found : ∀ t, s.look (d.2, d.1) = some t → h = twin t
  even : ∀ e < m.nEFill, e < s.m.nEFill ∨ 2 * e = h

theorem findHe_ok {nV nF : ℕ} {ds : List (ℕ × ℕ)} {s : PolySt} (hC : Core nV nF ds s) {d : ℕ × ℕ}
    (hd : s.look d = none) (hne : d.1 ≠ d.2) :
    (∃ m h, findHe s d.1 d.2 = .ok (m, h) ∧ Mid s d m h) ∨
      (findHe s d.1 d.2 = .error .oom ∧ INV ≤ 4 * (s.m.nEFill + 1)) := by
  unfold findHe
  cases ht : s.look (d.2, d.1) with
  | some t =>
    left
    obtain ⟨hlt, h1, h2⟩ := hC.vert _ _ ht
    refine ⟨_, _, rfl, hC.he, hC.hef, hC.e, hC.cap, ⟨le_rfl, by omega⟩, ⟨rfl, rfl, rfl⟩, ⟨rfl, rfl⟩, twin_lt_even hlt,
      ⟨h2, by rw [twin_twin]; exact h1⟩, ?_, fun g _ => ⟨rfl, rfl, rfl⟩, fun g hg => .inl hg, fun t' ht' => by rw [ht] at ht'; cases ht'; rfl,
      fun e he => .inl he⟩
    intro k hk
    obtain ⟨-, h3, h4⟩ := hC.vert _ _ hk
    rw [twin_twin, h1] at h4
    rw [h2] at h3
    have : k = d := Prod.ext h3.symm h4.symm
    rw [this, hd] at hk
    cases hk
  | none =>
    obtain ⟨c1, c2, c3, c4⟩ := hC.cap
    have hef := hC.hef
    have hfr : ∀ k, s.look k ≠ some s.m.nHeFill := by
      intro k hk
      have := (hC.vert _ _ hk).1
      omega
    have htw : twin s.m.nHeFill = 2 * s.m.nEFill + 1 := by rw [hef, twin_two_mul]
    unfold getNewEdgeTriple
    by_cases hg : s.m.nHeFill + 1 < s.m.nHeCap
    · left
      simp only [hg, not_true_eq_false, if_false, false_and]
      rw [if_neg (by omega), if_neg (by omega), if_neg (by omega)]
      refine ⟨_, _, rfl, ?_⟩
      refine ⟨by simp only; have := hC.he; omega, by simp only; omega, by simp only; have := hC.e; omega, ?_, ?_, ⟨rfl, rfl, rfl⟩,
        ⟨rfl, rfl⟩, ?_, ?_, hfr, ?_, ?_, fun t' ht' => (by rw [ht] at ht'; cases ht'), ?_⟩
      · simp only; omega
      · simp only; omega
      · simp only; omega
      · simp only
        refine ⟨?_, upd_same _ _ _⟩
        rw [upd_ne _ _ (by rw [htw]; omega), upd_same]
      · intro g hg
        simp only
        refine ⟨?_, ?_, ?_⟩ <;> rw [upd_ne _ _ (by rw [htw]; omega), upd_ne _ _ (by omega)]
      · intro g hg
        simp only at hg ⊢
        by_cases h1 : g < 2 * s.m.nEFill
        · exact .inl h1
        · by_cases h2 : g = s.m.nHeFill
          · exact .inr (.inl h2)
          · have h3 : g = twin s.m.nHeFill := by rw [htw]; omega
            refine .inr (.inr ⟨h3, ?_, ?_, ht⟩) <;> rw [h3, upd_same]
      · intro e he
        simp only at he ⊢
        omega
    · simp only [hg, not_false_eq_true, if_true, not_true_eq_false, false_and, if_false]
      by_cases ho : INV ≤ max (s.m.nHeCap * 2) 2
      · right
        rw [if_pos ho]
        refine ⟨rfl, ?_⟩
        have : 4 < INV := by decide
        omega
      · left
        rw [if_neg ho, if_neg (by omega)]
        refine ⟨_, _, rfl, ?_⟩
        refine ⟨by simp only; have := hC.he; omega, by simp only; omega, by simp only; have := hC.e; omega, ?_, ?_, ⟨rfl, rfl, rfl⟩,
          ⟨rfl, rfl⟩, ?_, ?_, hfr, ?_, ?_, fun t' ht' => (by rw [ht] at ht'; cases ht'), ?_⟩
        · simp only; omega
        · simp only; omega
        · simp only; omega
        · simp only
          refine ⟨?_, upd_same _ _ _⟩
          rw [upd_ne _ _ (by rw [htw]; omega), upd_same]
        · intro g hg
          simp only
          refine ⟨?_, ?_, ?_⟩ <;> rw [upd_ne _ _ (by rw [htw]; omega), upd_ne _ _ (by omega)]
        · intro g hg
          simp only at hg ⊢
          by_cases h1 : g < 2 * s.m.nEFill
          · exact .inl h1
          · by_cases h2 : g = s.m.nHeFill
            · exact .inr (.inl h2)
            · have h3 : g = twin s.m.nHeFill := by rw [htw]; omega
              refine .inr (.inr ⟨h3, ?_, ?_, ht⟩) <;> rw [h3, upd_same]
        · intro e he
          simp only at he ⊢
          omega

/-- How `addSide` changes the state: the new halfedge `h`. -/
structure Step (iFace : ℕ) (s : PolySt) (p : Option ℕ) (d : ℕ × ℕ) (s' : PolySt) (h : ℕ) : Prop where
  fresh : ∀ k, s.look k ≠ some h
  look : s'.look = fun k => if k = d then some h else s.look k
  face : s'.m.heFace h = iFace
  face_old : ∀ k g, s.look k = some g → s'.m.heFace g = s.m.heFace g
  next : ∀ q, p = some q → s'.m.heNext q = h
  next_old : ∀ k g, s.look k = some g → p ≠ some g → s'.m.heNext g = s.m.heNext g
  fhe : ∀ f, s'.m.fHalfedge f = if p = none ∧ f = iFace then h else s.m.fHalfedge f

theorem addSide_ok {nV nF iFace : ℕ} {ds : List (ℕ × ℕ)} {s : PolySt} (hC : Core nV nF ds s)
    {p : Option ℕ} (hp : ∀ q, p = some q → ∃ k, s.look k = some q) (d : ℕ × ℕ) :
    (∃ s' h, addSide iFace (s, p) d = .ok (s', some h) ∧ Core nV nF (ds ++ [d]) s' ∧ Step iFace s p d s' h) ∨
    (addSide iFace (s, p) d = .error .throw ∧ (d.1 = d.2 ∨ d ∈ ds)) ∨
    (addSide iFace (s, p) d = .error .oom ∧ INV ≤ 4 * (ds.length + 1)) := by
  unfold addSide
  by_cases h1 : d.1 = d.2
  · right; left; rw [if_pos h1]; exact ⟨rfl, .inl h1⟩
  rw [if_neg h1]
  by_cases h2 : s.look d = none
  swap
  · right; left; rw [if_pos h2]; exact ⟨rfl, .inr ((hC.dom d).1 h2)⟩
  rw [if_neg (by simpa using h2)]
  have hd : d ∉ ds := fun h => (hC.dom d).2 h h2
  rcases findHe_ok hC h2 h1 with ⟨m, h, he, hM⟩ | ⟨he, ho⟩
  swap
  · right; right
    simp only [he]
    refine ⟨rfl, ?_⟩
    have := hC.few
    omega
  left
  simp only [he]
  have hlook : ∀ k g, s.look k = some g → g ≠ h ∧ g < 2 * s.m.nEFill := by
    intro k g hk
    exact ⟨fun e => hM.fresh k (e ▸ hk), (hC.vert _ _ hk).1⟩
  have hfew := hM.few
  -- facts about the final arrays
  have key : ∀ m' : Mesh, m'.heVertex = m.heVertex → m'.heFace = upd m.heFace h iFace →
      m'.vHalfedge = upd m.vHalfedge d.1 h → m'.nHe = m.nHe → m'.nHeFill = m.nHeFill → m'.nE = m.nE → m'.nEFill = m.nEFill →
      m'.nHeCap = m.nHeCap → m'.nECap = m.nECap → m'.nV = m.nV → m'.nF = m.nF → m'.nBL = m.nBL →
      (∀ g, p ≠ some g → m'.heNext g = m.heNext g) → (∀ q, p = some q → m'.heNext q = h) →
      (∀ f, m'.fHalfedge f = if p = none ∧ f = iFace then h else m.fHalfedge f) →
      Core nV nF (ds ++ [d]) ⟨m', fun k => if k = d then some h else s.look k⟩ ∧
      Step iFace s p d ⟨m', fun k => if k = d then some h else s.look k⟩ h := by
    intro m' e1 e2 e3 e4 e5 e6 e7 e8 e9 e10 e11 e12 e13 e14 e15
    have hpg : ∀ g, p = some g → g < 2 * s.m.nEFill ∧ ∃ k, s.look k = some g := by
      intro g hg
      obtain ⟨k, hk⟩ := hp g hg
      exact ⟨(hlook k g hk).2, k, hk⟩
    constructor
    · refine ⟨?_, ?_, ?_, ?_, ?_, ?_, ?_, ?_, ?_, ?_, ?_, ?_, ?_⟩
      · simp only [e4, e7]; exact hM.he
      · simp only [e5, e7]; exact hM.hef
      · simp only [e6, e7]; exact hM.e
      · simp only [e7, e8, e9]; exact hM.cap
      · simp only [e7, List.length_append, List.length_singleton]
        have := hC.few
        omega
      · simp only [e10, e11, e12, hM.other.1, hM.other.2.1, hM.other.2.2]; exact hC.other
      · intro k
        simp only [List.mem_append, List.mem_singleton]
        by_cases hk : k = d
        · simp [hk]
        · rw [if_neg hk, hC.dom]; simp [hk]
      · rw [List.nodup_append]
        refine ⟨hC.nodup, List.nodup_singleton _, ?_⟩
        intro a ha b hb
        rw [List.mem_singleton] at hb
        rintro rfl
        exact hd (hb ▸ ha)
      · intro k hk
        rw [List.mem_append, List.mem_singleton] at hk
        rcases hk with hk | rfl
        · exact hC.ne k hk
        · exact h1
      · intro k g hk
        simp only [e1, e7] at hk ⊢
        split_ifs at hk with hkd
        · cases hk
          rw [hkd]
          exact ⟨hM.lt, hM.vert⟩
        · obtain ⟨a, b, c⟩ := hC.vert k g hk
          refine ⟨by omega, ?_, ?_⟩
          · rw [(hM.old g a).1, b]
          · rw [(hM.old _ (twin_lt_even a)).1, c]
      · intro g hg
        simp only [e1, e2, e7] at hg ⊢
        by_cases hgo : g < 2 * s.m.nEFill
        · rw [(hM.old g hgo).1, (hM.old _ (twin_lt_even hgo)).1]
          by_cases h3 : s.look (s.m.heVertex g, s.m.heVertex (twin g)) = some g
          · left
            rw [if_neg, h3]
            intro e
            rw [e, h2] at h3
            cases h3
          · have h4 := (hC.all g hgo).resolve_left h3
            by_cases hgh : g = h
            · left
              rw [if_pos, hgh]
              have := hM.vert
              rw [← hgh, (hM.old g hgo).1, (hM.old _ (twin_lt_even hgo)).1] at this
              exact Prod.ext this.1 this.2
            · right
              rw [upd_ne _ _ hgh, (hM.old g hgo).2.1, e13 g, (hM.old g hgo).2.2]
              · refine ⟨h4.1, h4.2.1, ?_⟩
                rw [if_neg]
                · exact h4.2.2
                · -- otherwise the twin would have been found
                  intro e
                  have hodd : g % 2 = 1 := by
                    by_contra h0
                    have h6 := hC.even (g / 2) (by omega)
                    rw [show 2 * (g / 2) = g by omega] at h6
                    exact h3 h6
                  have h6 := hC.even (g / 2) (by omega)
                  have h7 : 2 * (g / 2) = twin g := by
                    rw [← twin_two_mul_add (g / 2)]
                    congr 1
                    omega
                  rw [h7, twin_twin] at h6
                  rw [Prod.ext_iff] at e
                  rw [show (s.m.heVertex (twin g), s.m.heVertex g) = (d.2, d.1) from Prod.ext e.2 e.1] at h6
                  exact hgh (by rw [hM.found _ h6, twin_twin])
              · intro hpg'
                obtain ⟨-, k, hk⟩ := hpg g hpg'
                have h5 := hC.vert k g hk
                exact h3 (by rw [h5.2.1, h5.2.2]; exact hk)
        · rcases hM.new g hg with h3 | rfl | ⟨rfl, h3, h4, h5⟩
          · exact absurd h3 hgo
          · left
            rw [hM.vert.1, hM.vert.2, if_pos rfl]
          · right
            rw [upd_ne _ _ (twin_ne h), e13]
            · refine ⟨h3, h4, ?_⟩
              rw [twin_twin, hM.vert.1, hM.vert.2, if_neg]
              · exact h5
              · intro e
                exact h1 (congrArg Prod.snd e)
            · intro hpg'
              exact hgo (hpg _ hpg').1
      · intro e he
        simp only [e1, e7] at he ⊢
        rcases hM.even e he with h3 | h3
        · rw [(hM.old _ (by omega)).1, (hM.old _ (twin_lt_even (by omega))).1, if_neg, hC.even e h3]
          intro h4
          have := hC.even e h3
          rw [h4, h2] at this
          cases this
        · rw [h3, hM.vert.1, hM.vert.2, if_pos rfl]
      · intro v
        simp only [e3, hM.arr.1]
        by_cases hv : v = d.1
        · right
          exact ⟨d, by simp, by rw [if_pos rfl, hv, upd_same], hv.symm⟩
        · rw [upd_ne _ _ hv]
          rcases hC.vhe v with ⟨h3, h4⟩ | ⟨k, h3, h4, h5⟩
          · left
            refine ⟨h3, ?_⟩
            intro k hk
            rw [List.mem_append, List.mem_singleton] at hk
            rcases hk with hk | rfl
            · exact h4 k hk
            · exact fun e => hv e.symm
          · right
            refine ⟨k, by simp [h3], ?_, h5⟩
            rw [if_neg, h4]
            rintro rfl
            exact hd h3
    · refine ⟨hM.fresh, rfl, ?_, ?_, e14, ?_, ?_⟩
      · simp only [e2, upd_same]
      · intro k g hk
        obtain ⟨h3, h4⟩ := hlook k g hk
        simp only [e2]
        rw [upd_ne _ _ h3, (hM.old g h4).2.1]
      · intro k g hk hpg'
        obtain ⟨h3, h4⟩ := hlook k g hk
        simp only
        rw [e13 g hpg', (hM.old g h4).2.2]
      · intro f
        simp only [e15, hM.arr.2]
  cases p with
  | none =>
    obtain ⟨c1, c2⟩ := key { { m with heFace := upd m.heFace h iFace, vHalfedge := upd m.vHalfedge d.1 h } with
      fHalfedge := upd m.fHalfedge iFace h } rfl rfl rfl rfl rfl rfl rfl rfl rfl rfl rfl rfl (fun g _ => rfl)
      (fun q hq => by cases hq) (fun f => by simp [upd_apply])
    exact ⟨_, _, rfl, c1, c2⟩
  | some q =>
    obtain ⟨c1, c2⟩ := key { { m with heFace := upd m.heFace h iFace, vHalfedge := upd m.vHalfedge d.1 h } with
      heNext := upd m.heNext q h } rfl rfl rfl rfl rfl rfl rfl rfl rfl rfl rfl rfl
      (fun g hg => by
        simp only
        rw [upd_ne _ _ (show g ≠ q from fun e => hg (by rw [e]))])
      (fun q' hq => by cases hq; exact upd_same _ _ _) (fun f => by simp)
    exact ⟨_, _, rfl, c1, c2⟩

/-- The face `f` with the sides `l` is linked. -/
def Linked (s : PolySt) (f : ℕ) (l : List (ℕ × ℕ)) : Prop :=
  s.look (l.getD 0 (0, 0)) = some (s.m.fHalfedge f) ∧
  ∀ i < l.length, ∃ h, s.look (l.getD i (0, 0)) = some h ∧ s.m.heFace h = f ∧
    s.look (l.getD ((i + 1) % l.length) (0, 0)) = some (s.m.heNext h)

/-- Within the face `iFace`, after the sides `l`, starting from `s0` with the sides `ds`. -/
structure Part (nV nF : ℕ) (s0 : PolySt) (ds : List (ℕ × ℕ)) (iFace : ℕ) (l : List (ℕ × ℕ)) (s : PolySt × Option ℕ) : Prop where
  core : Core nV nF (ds ++ l) s.1
  old : ∀ k, s0.look k ≠ none → k ∈ ds
  keep : ∀ k g, s0.look k = some g → s.1.look k = some g ∧ s.1.m.heFace g = s0.m.heFace g ∧ s.1.m.heNext g = s0.m.heNext g
  fhe : ∀ f, f ≠ iFace → s.1.m.fHalfedge f = s0.m.fHalfedge f
  prev : s.2 = if l = [] then none else s.1.look (l.getD (l.length - 1) (0, 0))
  first : l ≠ [] → s.1.look (l.getD 0 (0, 0)) = some (s.1.m.fHalfedge iFace)
  link : ∀ i < l.length, ∃ h, s.1.look (l.getD i (0, 0)) = some h ∧ s.1.m.heFace h = iFace ∧
    (i + 1 < l.length → s.1.look (l.getD (i + 1) (0, 0)) = some (s.1.m.heNext h))

theorem Core.look_inj {nV nF : ℕ} {ds : List (ℕ × ℕ)} {s : PolySt} (hC : Core nV nF ds s) {k k' : ℕ × ℕ} {h : ℕ}
    (h1 : s.look k = some h) (h2 : s.look k' = some h) : k = k' := by
  obtain ⟨-, a, b⟩ := hC.vert _ _ h1
  obtain ⟨-, c, d⟩ := hC.vert _ _ h2
  exact Prod.ext (a.symm.trans c) (b.symm.trans d)

theorem getD_mem {α : Type} {l : List α} {i : ℕ} {x : α} (h : i < l.length) : l.getD i x ∈ l := by
  rw [List.getD_eq_getElem?_getD, List.getElem?_eq_getElem h]
  exact List.getElem_mem h

theorem getD_inj {α : Type} {l : List α} (hl : l.Nodup) {i j : ℕ} {x : α} (hi : i < l.length) (hj : j < l.length)
    (h : l.getD i x = l.getD j x) : i = j := by
  rw [List.getD_eq_getElem?_getD, List.getD_eq_getElem?_getD, List.getElem?_eq_getElem hi, List.getElem?_eq_getElem hj] at h
  exact (List.Nodup.getElem_inj_iff hl).1 h

theorem getD_append_left {α : Type} {l m : List α} {i : ℕ} {x : α} (hi : i < l.length) : (l ++ m).getD i x = l.getD i x := by
  rw [List.getD_eq_getElem?_getD, List.getD_eq_getElem?_getD, List.getElem?_append_left hi]

theorem getD_append_last {α : Type} {l : List α} {d x : α} : (l ++ [d]).getD l.length x = d := by
  rw [List.getD_eq_getElem?_getD, List.getElem?_append_right le_rfl]
  simp

theorem Part.step {nV nF : ℕ} {s0 : PolySt} {ds : List (ℕ × ℕ)} {iFace : ℕ} {l : List (ℕ × ℕ)} {s : PolySt × Option ℕ}
    (hP : Part nV nF s0 ds iFace l s) (d : ℕ × ℕ) :
    (∃ s', addSide iFace s d = .ok s' ∧ Part nV nF s0 ds iFace (l ++ [d]) s') ∨
    (addSide iFace s d = .error .throw ∧ (d.1 = d.2 ∨ d ∈ ds ++ l)) ∨
    (addSide iFace s d = .error .oom ∧ INV ≤ 4 * ((ds ++ l).length + 1)) := by
  obtain ⟨s, p⟩ := s
  have hprev := hP.prev
  simp only at hprev
  have hp : ∀ q, p = some q → ∃ k, s.look k = some q := by
    intro q hq
    rw [hprev] at hq
    split_ifs at hq
    exact ⟨_, hq⟩
  rcases addSide_ok (iFace := iFace) hP.core hp d with ⟨s', h, he, hC, hS⟩ | h | h
  · left
    refine ⟨_, he, ?_⟩
    have hnd := hC.nodup
    have hl : l.Nodup := (List.nodup_append.1 (List.nodup_append.1 hnd).1).2.1
    have hdl : ∀ k ∈ ds ++ l, k ≠ d := by
      intro k hk
      exact (List.nodup_append.1 hnd).2.2 k hk d (by simp)
    have hdi : ∀ i < l.length, l.getD i (0, 0) ≠ d := fun i hi => hdl _ (by
      rw [List.mem_append]; exact .inr (getD_mem hi))
    have hlook : ∀ k ∈ ds ++ l, s'.look k = s.look k := by
      intro k hk
      rw [hS.look]
      simp only
      rw [if_neg (hdl k hk)]
    have hlk : ∀ i < l.length, s'.look (l.getD i (0, 0)) = s.look (l.getD i (0, 0)) := fun i hi => hlook _ (by
      rw [List.mem_append]; exact .inr (getD_mem hi))
    have hld : s'.look d = some h := by rw [hS.look]; simp
    refine ⟨?_, hP.old, ?_, ?_, ?_, ?_, ?_⟩
    · simp only
      rw [← List.append_assoc]
      exact hC
    · intro k g hk
      obtain ⟨a, b, c⟩ := hP.keep k g hk
      simp only at a b c ⊢
      refine ⟨?_, ?_, ?_⟩
      · rw [hlook k ((hP.core.dom k).1 (by simp only; rw [a]; simp))]; exact a
      · rw [hS.face_old k g a]; exact b
      · rw [hS.next_old k g a, c]
        intro hpg
        -- the last side is not among the old ones
        rw [hprev] at hpg
        split_ifs at hpg with hnil
        have h1 := hP.core.look_inj hpg a
        have hlen : 0 < l.length := List.length_pos_iff.2 hnil
        have h2 := hP.old k (by rw [hk]; simp)
        rw [← h1] at h2
        have hnd' := (List.nodup_append.1 hnd).1
        exact (List.nodup_append.1 hnd').2.2 _ h2 _ (getD_mem (by omega)) rfl
    · intro f hf
      simp only
      rw [hS.fhe, if_neg (fun h => hf h.2)]
      exact hP.fhe f hf
    · simp only
      rw [if_neg (by simp), List.length_append, List.length_singleton, Nat.add_sub_cancel, getD_append_last, hld]
    · intro _
      simp only
      by_cases hnil : l = []
      · subst hnil
        simp only [List.nil_append, List.getD_cons_zero, hld]
        rw [hS.fhe, if_pos ⟨by rw [hprev]; simp, rfl⟩]
      · have hlen : 0 < l.length := List.length_pos_iff.2 hnil
        rw [getD_append_left hlen, hlk 0 hlen, hP.first hnil, hS.fhe, if_neg]
        rw [hprev, if_neg hnil]
        rintro ⟨h1, -⟩
        obtain ⟨x, hx, -⟩ := hP.link (l.length - 1) (by omega)
        simp only at hx
        rw [h1] at hx
        cases hx
    · intro i hi
      simp only
      rw [List.length_append, List.length_singleton] at hi
      by_cases hil : i < l.length
      · obtain ⟨g, h1, h2, h3⟩ := hP.link i hil
        simp only at h1 h2 h3
        refine ⟨g, ?_, ?_, ?_⟩
        · rw [getD_append_left hil, hlk i hil, h1]
        · rw [hS.face_old _ _ h1, h2]
        · intro _
          by_cases hi1 : i + 1 < l.length
          · rw [getD_append_left hi1, hlk _ hi1, h3 hi1, hS.next_old _ _ h1]
            rw [hprev]
            split_ifs
            · simp
            · intro h4
              have := getD_inj hl (show l.length - 1 < l.length by omega) hil (hP.core.look_inj h4 h1)
              omega
          · have hie : i + 1 = l.length := by omega
            rw [hie, getD_append_last, hld, hS.next g]
            rw [hprev, if_neg (by rintro rfl; simp at hil), ← h1]
            congr 2
            omega
      · have : i = l.length := by omega
        subst this
        refine ⟨h, ?_, hS.face, fun h => by
          rw [List.length_append, List.length_singleton] at h; omega⟩
        rw [getD_append_last, hld]
  · exact .inr (.inl h)
  · exact .inr (.inr h)

/-- A sequence of sides is entered. -/
theorem Part.sides {nV nF : ℕ} {s0 : PolySt} {ds : List (ℕ × ℕ)} (hC : Core nV nF ds s0) (iFace : ℕ) (l : List (ℕ × ℕ)) :
    (∃ s', l.foldlM (addSide iFace) (s0, none) = .ok s' ∧ Part nV nF s0 ds iFace l s') ∨
    ∃ e, l.foldlM (addSide iFace) (s0, none) = .error e ∧
      ((e = .throw ∧ ((∃ d ∈ l, d.1 = d.2) ∨ ¬ (ds ++ l).Nodup)) ∨ (e = .oom ∧ INV ≤ 4 * ((ds ++ l).length + 1))) := by
  refine foldlM_inv_err (fun p s => Part nV nF s0 ds iFace p s) _ ?_ ?_
  · refine ⟨by simpa using hC, fun k hk => (hC.dom k).1 hk, fun k g hk => ⟨hk, rfl, rfl⟩, fun f _ => rfl, by simp,
      fun h => absurd rfl h, fun i hi => by simp at hi⟩
  · intro p x q s hl hP
    rcases hP.step x with h | ⟨h, h1⟩ | ⟨h, h1⟩
    · exact .inl h
    · right
      refine ⟨_, h, .inl ⟨rfl, ?_⟩⟩
      rcases h1 with h1 | h1
      · exact .inl ⟨x, by rw [hl]; simp, h1⟩
      · right
        intro hnd
        rw [hl, ← List.append_assoc] at hnd
        exact (List.nodup_append.1 hnd).2.2 x h1 x (by simp) rfl
    · right
      refine ⟨_, h, .inr ⟨rfl, ?_⟩⟩
      rw [hl]
      simp only [List.length_append, List.length_cons] at h1 ⊢
      omega

/-- Changing `next` of an entered halfedge. -/
theorem Core.setNext {nV nF : ℕ} {s : PolySt} {ds : List (ℕ × ℕ)} (hC : Core nV nF ds s) {k : ℕ × ℕ} {q : ℕ}
    (hk : s.look k = some q) (x : ℕ) : Core nV nF ds { s with m := { s.m with heNext := upd s.m.heNext q x } } := by
  refine ⟨hC.he, hC.hef, hC.e, hC.cap, hC.few, hC.other, hC.dom, hC.nodup, hC.ne, hC.vert, ?_, hC.even, hC.vhe⟩
  intro h hh
  by_cases h1 : s.look (s.m.heVertex h, s.m.heVertex (twin h)) = some h
  · exact .inl h1
  · obtain ⟨h2, h3, h4⟩ := (hC.all h hh).resolve_left h1
    refine .inr ⟨h2, ?_, h4⟩
    simp only
    rw [upd_ne _ _ (show h ≠ q from ?_), h3]
    rintro rfl
    obtain ⟨-, a, b⟩ := hC.vert _ _ hk
    exact h1 (by rw [a, b]; exact hk)

/-- The state after the faces `ps`. -/
structure Built (nV nF : ℕ) (ps : List (List ℕ)) (s : PolySt) : Prop where
  core : Core nV nF (ps.flatMap sidesOf) s
  link : ∀ f < ps.length, Linked s f (sidesOf (ps.getD f []))

theorem sidesOf_length (p : List ℕ) : (sidesOf p).length = p.length := by simp [sidesOf]

theorem addPoly_ok {nV nF : ℕ} {ps : List (List ℕ)} {s : PolySt} (hB : Built nV nF ps s) {p : List ℕ} (hp : p ≠ []) :
    (∃ s', addPoly s (p, ps.length) = .ok s' ∧ Built nV nF (ps ++ [p]) s') ∨
    ∃ e, addPoly s (p, ps.length) = .error e ∧
      ((e = .throw ∧ ((∃ d ∈ sidesOf p, d.1 = d.2) ∨ ¬ ((ps ++ [p]).flatMap sidesOf).Nodup)) ∨
        (e = .oom ∧ INV ≤ 4 * (((ps ++ [p]).flatMap sidesOf).length + 1))) := by
  have hfm : (ps ++ [p]).flatMap sidesOf = ps.flatMap sidesOf ++ sidesOf p := by simp
  rw [hfm]
  unfold addPoly
  simp only
  rcases Part.sides hB.core ps.length (sidesOf p) with ⟨⟨s', prev⟩, he, hP⟩ | ⟨e, he, h1⟩
  swap
  · right
    rw [he]
    exact ⟨e, rfl, h1⟩
  left
  rw [he]
  have hlen : 0 < (sidesOf p).length := by rw [sidesOf_length]; exact List.length_pos_iff.2 hp
  have hnil : sidesOf p ≠ [] := List.length_pos_iff.1 hlen
  obtain ⟨q, hq, hqf, -⟩ := hP.link ((sidesOf p).length - 1) (by omega)
  have hprev := hP.prev
  have hfirst := hP.first hnil
  simp only at hq hqf hprev hfirst
  rw [if_neg hnil, hq] at hprev
  subst hprev
  refine ⟨_, rfl, ?_⟩
  have hnd := hP.core.nodup
  have hl := (List.nodup_append.1 hnd).2.1
  refine ⟨?_, ?_⟩
  · rw [hfm]
    exact hP.core.setNext hq _
  · intro f hf
    rw [List.length_append, List.length_singleton] at hf
    by_cases hfp : f < ps.length
    · rw [getD_append_left hfp]
      obtain ⟨h1, h2⟩ := hB.link f hfp
      refine ⟨?_, ?_⟩
      · simp only
        rw [hP.fhe f (by omega)]
        exact (hP.keep _ _ h1).1
      · intro i hi
        obtain ⟨h, h3, h4, h5⟩ := h2 i hi
        obtain ⟨a, b, c⟩ := hP.keep _ _ h3
        refine ⟨h, a, by simp only; rw [b]; exact h4, ?_⟩
        simp only at c ⊢
        rw [upd_ne, c]
        · exact (hP.keep _ _ h5).1
        · rintro rfl
          have h6 := hP.core.look_inj a hq
          have h7 := hP.old _ (by rw [h3]; simp)
          rw [h6] at h7
          exact (List.nodup_append.1 hnd).2.2 _ h7 _ (getD_mem (by omega)) rfl
    · have hfe : f = ps.length := by omega
      subst hfe
      rw [getD_append_last]
      refine ⟨hfirst, ?_⟩
      intro i hi
      obtain ⟨h, h3, h4, h5⟩ := hP.link i hi
      simp only at h3 h4 h5
      refine ⟨h, h3, h4, ?_⟩
      simp only
      by_cases hil : i + 1 < (sidesOf p).length
      · rw [Nat.mod_eq_of_lt hil, h5 hil, upd_ne]
        rintro rfl
        have := getD_inj hl (show (sidesOf p).length - 1 < (sidesOf p).length by omega) hi (hP.core.look_inj hq h3)
        omega
      · have hie : i + 1 = (sidesOf p).length := by omega
        have hii : i = (sidesOf p).length - 1 := by omega
        rw [hie, Nat.mod_self, hfirst]
        rw [hii, hq] at h3
        cases h3
        rw [upd_same]

/-- The loop over the faces. -/
theorem polys_ok {polys : List (List ℕ)} (h3 : ∀ p ∈ polys, 3 ≤ p.length) (nV : ℕ) :
    (∃ s, polys.zipIdx.foldlM addPoly ⟨empty nV polys.length, fun _ => none⟩ = .ok s ∧ Built nV polys.length polys s) ∨
    ∃ e, polys.zipIdx.foldlM addPoly ⟨empty nV polys.length, fun _ => none⟩ = .error e ∧
      ((e = .throw ∧ ((∃ d ∈ polys.flatMap sidesOf, d.1 = d.2) ∨ ¬ (polys.flatMap sidesOf).Nodup)) ∨
        (e = .oom ∧ INV ≤ 4 * ((polys.flatMap sidesOf).length + 1))) := by
  have h0 : Built nV polys.length [] ⟨empty nV polys.length, fun _ => none⟩ := by
    refine ⟨⟨rfl, rfl, rfl, ⟨rfl, le_rfl, le_rfl, show (0 : ℕ) < INV by decide⟩, le_rfl, ⟨rfl, rfl, rfl⟩, ?_, by simp, ?_, ?_, ?_, ?_, ?_⟩, ?_⟩
    · intro k; simp
    · intro k hk; simp at hk
    · intro k h hk; simp at hk
    · intro h hh; simp [empty] at hh
    · intro h hh; simp [empty] at hh
    · intro v; exact .inl ⟨rfl, by simp⟩
    · intro f hf; simp at hf
  have := foldlM_inv_err (f := addPoly) (l := polys.zipIdx)
    (fun q s => Built nV polys.length (q.map Prod.fst) s)
    (fun e => ((e = .throw ∧ ((∃ d ∈ polys.flatMap sidesOf, d.1 = d.2) ∨ ¬ (polys.flatMap sidesOf).Nodup)) ∨
        (e = .oom ∧ INV ≤ 4 * ((polys.flatMap sidesOf).length + 1))))
    (s0 := ⟨empty nV polys.length, fun _ => none⟩) h0 (by
    intro q x r s hq hB
    have hx : x = (x.1, q.length) := by
      have h1 : polys.zipIdx[q.length]? = some x := by rw [hq]; simp
      rw [List.getElem?_zipIdx] at h1
      rw [Option.map_eq_some_iff] at h1
      obtain ⟨a, -, h2⟩ := h1
      rw [← h2]; simp
    have hpolys : polys = q.map Prod.fst ++ x.1 :: r.map Prod.fst := by
      have := congrArg (List.map Prod.fst) hq
      rw [List.map_append, List.map_cons] at this
      rw [← this]; simp
    have hmem : x.1 ∈ polys := by rw [hpolys]; simp
    have hne : x.1 ≠ [] := by
      intro h
      have := h3 _ hmem
      rw [h] at this
      simp at this
    have hsplit : polys = (q.map Prod.fst ++ [x.1]) ++ r.map Prod.fst := by rw [hpolys]; simp
    have hfm : polys.flatMap sidesOf =
        (q.map Prod.fst ++ [x.1]).flatMap sidesOf ++ (r.map Prod.fst).flatMap sidesOf := by
      conv_lhs => rw [hsplit]
      rw [List.flatMap_append]
    have key := addPoly_ok hB hne
    rw [List.length_map, ← hx] at key
    rcases key with ⟨s', h1, h2⟩ | ⟨e, h1, h2⟩
    · exact .inl ⟨s', h1, by simpa using h2⟩
    · refine .inr ⟨e, h1, ?_⟩
      rcases h2 with ⟨h2, ⟨d, hd, h4⟩ | h4⟩ | ⟨h2, h4⟩
      · exact .inl ⟨h2, .inl ⟨d, List.mem_flatMap.2 ⟨_, hmem, hd⟩, h4⟩⟩
      · refine .inl ⟨h2, .inr fun hnd => h4 ?_⟩
        rw [hfm] at hnd
        exact (List.nodup_append.1 hnd).1
      · refine .inr ⟨h2, ?_⟩
        rw [hfm, List.length_append]
        omega)
  simpa using this

end Mesh
end GC
