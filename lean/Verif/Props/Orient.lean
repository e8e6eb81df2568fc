import Verif.Props.Invert

/-!
# C29: greedy orientation of the faces of a general mesh
-/

namespace GC.GMesh

/-- `h` lies on a manifold edge with two faces. -/
def Man (m : GMesh) (h : ℕ) : Prop := m.heL h ∧ m.heSibling h ≠ h ∧ m.heSibling (m.heSibling h) = h

/-- Turning the faces in `σ` makes every manifold interior edge run in opposite directions in its two
faces. -/
def IsOrientation (m : GMesh) (σ : ℕ → Bool) : Prop :=
  ∀ h, m.Man h → (m.heOrient h ^^ σ (m.heFace h)) ≠ (m.heOrient (m.heSibling h) ^^ σ (m.heFace (m.heSibling h)))

/-- `m` is `m0` with the faces in `φ` turned around. -/
structure Turned (m0 m : GMesh) (φ : ℕ → Bool) : Prop where
  face : m.heFace = m0.heFace
  edge : m.heEdge = m0.heEdge
  sibling : m.heSibling = m0.heSibling
  fHe : m.fHalfedge = m0.fHalfedge
  eHe : m.eHalfedge = m0.eHalfedge
  live : ∀ h, m.heL h ↔ m0.heL h
  vlive : ∀ v, m.vL v ↔ m0.vL v
  orient : ∀ h, m0.heL h → m.heOrient h = (m0.heOrient h ^^ φ (m0.heFace h))
  keep : ∀ h, m0.heL h → φ (m0.heFace h) = false → m.heVertex h = m0.heVertex h ∧ m.heNext h = m0.heNext h
  turn : ∀ h, m0.heL h → φ (m0.heFace h) = true → m.heVertex h = m0.tip h ∧ m.heNext (m0.heNext h) = h
  fill : m.nHeFill = m0.nHeFill ∧ m.nFFill = m0.nFFill
  counts : m.nHe = m0.nHe ∧ m.nInt = m0.nInt ∧ m.nV = m0.nV ∧ m.nE = m0.nE ∧ m.nF = m0.nF

theorem Turned.fL {m0 m : GMesh} {φ : ℕ → Bool} (ht : Turned m0 m φ) (f : ℕ) : m.fL f ↔ m0.fL f := by
  unfold GMesh.fL; rw [ht.fHe, ht.fill.2]

theorem Turned.man {m0 m : GMesh} {φ : ℕ → Bool} (ht : Turned m0 m φ) (h : ℕ) : m.Man h ↔ m0.Man h := by
  unfold Man; rw [ht.live, ht.sibling]

theorem man_iff {m : GMesh} (hv : m.Valid) {h : ℕ} (hh : m.heL h) :
    (m.isBoundary (m.heEdge h) || !m.isManifold (m.heEdge h)) = false ↔ m.Man h := by
  have he := hv.edge_live h hh
  obtain ⟨a, b⟩ := hv.e_he _ he
  have o1 := (hv.edge_iff _ _ a hh).1 b
  have o2 := (hv.edge_iff _ _ hh a).1 b.symm
  unfold isBoundary isManifold Man
  generalize m.eHalfedge (m.heEdge h) = g at *
  simp only [Bool.or_eq_false_iff, beq_eq_false_iff_ne, Bool.not_eq_false', Bool.or_eq_true, beq_iff_eq]
  have two : ∀ {x y : ℕ}, m.heSibling (m.heSibling x) = x → Orb m.heSibling x y → y = x ∨ y = m.heSibling x := by
    intro x y hx ho
    refine ho.mem (fun z => z = x ∨ z = m.heSibling x) (.inl rfl) ?_
    rintro z (rfl | rfl)
    · exact .inr rfl
    · exact .inl hx
  constructor
  · rintro ⟨h1, h2⟩
    have h2 := h2.resolve_right h1
    refine ⟨hh, ?_⟩
    rcases two h2 o1 with rfl | rfl
    · exact ⟨h1, h2⟩
    · rw [h2]; exact ⟨fun x => h1 x.symm, rfl⟩
  · rintro ⟨-, h1, h2⟩
    rcases two h2 o2 with rfl | rfl
    · exact ⟨h1, .inl h2⟩
    · rw [h2]; exact ⟨fun x => h1 x.symm, .inl rfl⟩

theorem isOriented_man {m : GMesh} (hv : m.Valid) {h : ℕ} (hm : m.Man h) :
    m.isOriented (m.heEdge h) = (m.heOrient h != m.heOrient (m.heSibling h)) := by
  obtain ⟨hh, h1, h2⟩ := hm
  have he := hv.edge_live h hh
  obtain ⟨a, b⟩ := hv.e_he _ he
  have o2 := (hv.edge_iff _ _ hh a).1 b.symm
  have two : m.eHalfedge (m.heEdge h) = h ∨ m.eHalfedge (m.heEdge h) = m.heSibling h := by
    refine o2.mem (fun z => z = h ∨ z = m.heSibling h) (.inl rfl) ?_
    rintro z (rfl | rfl)
    · exact .inr rfl
    · exact .inl h2
  unfold isOriented
  rcases two with x | x <;> rw [x]
  · simp only
    rw [if_neg (fun y => h1 y.symm), if_neg (by simpa using h2)]
  · simp only
    rw [h2, if_neg h1, if_neg (by simp)]
    cases m.heOrient h <;> cases m.heOrient (m.heSibling h) <;> rfl

/-- Invariant of a search that began when the faces `D0` were done.  `W` are the halfedges of the current
face that have not been looked at. -/
structure GI (m0 : GMesh) (D0 : ℕ → Bool) (W : ℕ → Prop) (s : Greedy) (φ : ℕ → Bool) : Prop where
  valid : s.m.Valid
  turned : Turned m0 s.m φ
  undone : ∀ f, s.done f = false → φ f = false
  mono : ∀ f, D0 f = true → s.done f = true
  closed0 : ∀ h, m0.Man h → D0 (m0.heFace h) = true → D0 (m0.heFace (m0.heSibling h)) = true
  good0 : ∀ σ, m0.IsOrientation σ → ∀ h, m0.Man h → D0 (m0.heFace h) = true →
    (φ (m0.heFace h) ^^ σ (m0.heFace h)) = (φ (m0.heFace (m0.heSibling h)) ^^ σ (m0.heFace (m0.heSibling h)))
  same : ∀ σ, m0.IsOrientation σ → ∃ c, ∀ f, s.done f = true → D0 f = false → (φ f ^^ σ f) = c
  stk : ∀ f ∈ s.stack, s.done f = true ∧ D0 f = false ∧ m0.fL f
  work : ∀ h, m0.Man h → s.done (m0.heFace h) = true → m0.heFace h ∉ s.stack → ¬ W h →
    s.done (m0.heFace (m0.heSibling h)) = true

/-- Faces waiting and faces not done. -/
def todo (m0 : GMesh) (s : Greedy) : ℕ := s.stack.length + Nat.count (fun f => s.done f = false) m0.nFFill

theorem count_flip {done : ℕ → Bool} {f n : ℕ} (hf : f < n) (hd : done f = false) :
    Nat.count (fun g => (if g = f then true else done g) = false) n + 1 = Nat.count (fun g => done g = false) n := by
  induction n with
  | zero => omega
  | succ n ih =>
    rw [Nat.count_succ, Nat.count_succ]
    by_cases e : f = n
    · subst e
      rw [if_pos rfl]
      simp only [Bool.true_eq_false, if_false, hd, if_true, Nat.add_zero]
      congr 1
      exact GC.count_congr (fun i hi => by rw [if_neg (by omega)])
    · rw [← ih (by omega), if_neg (show n ≠ f from fun x => e x.symm)]
      omega

theorem Turned.invert {m0 m m' : GMesh} {φ : ℕ → Bool} (hv : m.Valid) (hv0 : m0.Valid) (ht : Turned m0 m φ) {f : ℕ} (hφ : φ f = false)
    (hr : Reversed m m' f) : Turned m0 m' (fun g => if g = f then true else φ g) := by
  have hL : ∀ h, m'.heL h ↔ m.heL h := hr.heL hv
  refine ⟨hr.face.trans ht.face, hr.edge.trans ht.edge, hr.sibling.trans ht.sibling, hr.fHe.trans ht.fHe, hr.eHe.trans ht.eHe,
    fun h => (hL h).trans (ht.live h), fun v => (hr.vlive v).trans (ht.vlive v), fun h hh => ?_, fun h hh hp => ?_, fun h hh hp => ?_, ?_, ?_⟩
  · by_cases e : m0.heFace h = f
    · rw [hr.orient h ((ht.live h).2 hh) (by rw [ht.face]; exact e), ht.orient h hh, e, if_pos rfl, hφ]
      simp
    · rw [(hr.other h (fun x => e (by rw [← ht.face]; exact x.2))).2.2, ht.orient h hh, if_neg e]
  · by_cases e : m0.heFace h = f
    · rw [if_pos e] at hp; cases hp
    · rw [if_neg e] at hp
      have := hr.other h (fun x => e (by rw [← ht.face]; exact x.2))
      rw [this.1, this.2.1]
      exact ht.keep h hh hp
  · by_cases e : m0.heFace h = f
    · have k := ht.keep h hh (by rw [e]; exact hφ)
      have hn := hv0.next_live h hh
      have k2 := ht.keep _ hn (by rw [hv0.face_next hh, e]; exact hφ)
      have hf' : m.heFace h = f := by rw [ht.face]; exact e
      refine ⟨?_, ?_⟩
      · rw [hr.vertex h ((ht.live h).2 hh) hf']
        unfold tip
        rw [k.2, k2.1]
      · rw [← k.2]; exact hr.next h ((ht.live h).2 hh) hf'
    · rw [if_neg e] at hp
      have h1 := hr.other h (fun x => e (by rw [← ht.face]; exact x.2))
      have h2 := hr.other (m0.heNext h) (fun x => e (by rw [← hv0.face_next hh, ← ht.face]; exact x.2))
      rw [h1.1, h2.2.1]
      exact ht.turn h hh hp
  · exact ⟨hr.counts.2.2.1.trans ht.fill.1, hr.counts.2.2.2.2.2.2.2.2.2.2.2.1.trans ht.fill.2⟩
  · obtain ⟨a, b, c, d, e⟩ := ht.counts
    obtain ⟨a1, b1, -, -, c1, -, -, d1, -, -, e1, -, -⟩ := hr.counts
    exact ⟨a1.trans a, b1.trans b, c1.trans c, d1.trans d, e1.trans e⟩

theorem greedyHe_ok {m0 : GMesh} (hv0 : m0.Valid) {D0 : ℕ → Bool} {W : ℕ → Prop} {s : Greedy} {φ : ℕ → Bool} (hg : GI m0 D0 W s φ)
    {cur : ℕ} (hc : m0.heL cur) (hd : s.done (m0.heFace cur) = true) (hD : D0 (m0.heFace cur) = false) :
    ∃ s' φ', greedyHe s cur = .ok s' ∧ GI m0 D0 (fun h => W h ∧ h ≠ cur) s' φ' ∧
      (∀ h, m0.heL h → s.done (m0.heFace h) = true → s'.m.heNext h = s.m.heNext h ∧ s'.done (m0.heFace h) = true) ∧
      (∀ g, s.done g = true → s'.done g = true) ∧ todo m0 s' = todo m0 s := by
  have ht := hg.turned
  unfold greedyHe
  have hmi := man_iff hg.valid ((ht.live cur).2 hc)
  by_cases hm : m0.Man cur
  · have hm' := (ht.man cur).2 hm
    have hcond := hmi.2 hm'
    have hlS : m0.heL (m0.heSibling cur) := hv0.sib_live cur hc
    by_cases hdO : s.done (m0.heFace (m0.heSibling cur)) = true
    · refine ⟨s, φ, ?_, ?_, fun h _ hh => ⟨rfl, hh⟩, fun _ h => h, rfl⟩
      · simp only
        rw [hcond]
        simp only [Bool.false_eq_true, if_false]
        rw [ht.face, ht.sibling, if_pos hdO]
      · refine ⟨hg.valid, ht, hg.undone, hg.mono, hg.closed0, hg.good0, hg.same, hg.stk, fun h h1 h2 h3 h4 => ?_⟩
        by_cases e : h = cur
        · rw [e]; exact hdO
        · exact hg.work h h1 h2 h3 (fun x => h4 ⟨x, e⟩)
    · have hdO' : s.done (m0.heFace (m0.heSibling cur)) = false := by simpa using hdO
      have hfL : m0.fL (m0.heFace (m0.heSibling cur)) := hv0.face_live _ hlS
      have hne : m0.heFace cur ≠ m0.heFace (m0.heSibling cur) := fun e => by rw [e, hdO'] at hd; cases hd
      have hD0O : D0 (m0.heFace (m0.heSibling cur)) = false := by
        by_contra x
        have := hg.mono _ (by simpa using x)
        rw [hdO'] at this; cases this
      have hφO := hg.undone _ hdO'
      have hor : s.m.isOriented (s.m.heEdge cur) = (s.m.heOrient cur != s.m.heOrient (m0.heSibling cur)) := by
        rw [isOriented_man hg.valid hm', ht.sibling]
      have htodo : ∀ m1 : GMesh, todo m0 ⟨m1, m0.heFace (m0.heSibling cur) :: s.stack,
          fun f => if f = m0.heFace (m0.heSibling cur) then true else s.done f⟩ = todo m0 s := by
        intro m1
        unfold todo
        have := count_flip hfL.1 hdO'
        simp only [List.length_cons]
        omega
      generalize hfO : m0.heFace (m0.heSibling cur) = fO at *
      -- the new invariant for either choice
      have main : ∀ (m1 : GMesh) (φ1 : ℕ → Bool), m1.Valid → Turned m0 m1 φ1 → (∀ f, f ≠ fO → φ1 f = φ f) →
          (∀ σ, m0.IsOrientation σ → (φ1 fO ^^ σ fO) = (φ (m0.heFace cur) ^^ σ (m0.heFace cur))) →
          GI m0 D0 (fun h => W h ∧ h ≠ cur) ⟨m1, fO :: s.stack, fun f => if f = fO then true else s.done f⟩ φ1 := by
        intro m1 φ1 hv1 ht1 hφ1 hσ
        have hD0ne : ∀ f, D0 f = true → f ≠ fO := fun f x e => by rw [e, hD0O] at x; cases x
        refine ⟨hv1, ht1, ?_, ?_, hg.closed0, ?_, ?_, ?_, ?_⟩
        · intro f hf
          simp only at hf
          by_cases e : f = fO
          · rw [if_pos e] at hf; cases hf
          · rw [if_neg e] at hf; rw [hφ1 f e]; exact hg.undone f hf
        · intro f hf
          simp only
          rw [if_neg (hD0ne f hf)]
          exact hg.mono f hf
        · intro σ hσ' h hmh hh
          rw [hφ1 _ (hD0ne _ hh), hφ1 _ (hD0ne _ (hg.closed0 h hmh hh))]
          exact hg.good0 σ hσ' h hmh hh
        · intro σ hσ'
          obtain ⟨c, hc'⟩ := hg.same σ hσ'
          refine ⟨c, fun f h1 h2 => ?_⟩
          simp only at h1
          by_cases e : f = fO
          · rw [e, hσ σ hσ']; exact hc' _ hd hD
          · rw [if_neg e] at h1
            rw [hφ1 f e]; exact hc' f h1 h2
        · intro f hf
          simp only [List.mem_cons] at hf
          rcases hf with rfl | hf
          · exact ⟨by simp, hD0O, hfL⟩
          · obtain ⟨a, b, c⟩ := hg.stk f hf
            refine ⟨?_, b, c⟩
            simp only
            split_ifs
            · rfl
            · exact a
        · intro h h1 h2 h3 h4
          simp only [List.mem_cons, not_or] at h3
          simp only at h2 ⊢
          rw [if_neg h3.1] at h2
          by_cases e : h = cur
          · rw [e, hfO, if_pos rfl]
          · split_ifs
            · rfl
            · exact hg.work h h1 h2 h3.2 (fun x => h4 ⟨x, e⟩)
      have hoc := ht.orient cur hc
      have hoS := ht.orient _ hlS
      rw [hfO] at hoS
      have hstack : ∀ g, s.done g = true → (if g = fO then true else s.done g) = true := fun g hgd => by
        split_ifs
        · rfl
        · exact hgd
      by_cases hio : s.m.isOriented (s.m.heEdge cur) = true
      · refine ⟨⟨s.m, fO :: s.stack, fun f => if f = fO then true else s.done f⟩, φ, ?_, main s.m φ hg.valid ht (fun _ _ => rfl) ?_,
          fun h _ hh => ⟨rfl, ?_⟩, hstack, htodo _⟩
        · simp only
          rw [hcond]
          simp only [Bool.false_eq_true, if_false]
          rw [ht.face, ht.sibling, hfO, if_neg hdO, hio]
          simp only [Bool.not_true, Bool.false_eq_true, if_false, bind, Except.bind]
        · intro σ hσ
          have h1 := hσ cur hm
          rw [hfO] at h1
          rw [hor, hoc, hoS, hφO] at hio
          rw [hφO]
          clear * - h1 hio
          generalize m0.heOrient cur = a at *
          generalize m0.heOrient (m0.heSibling cur) = b at *
          generalize φ (m0.heFace cur) = p at *
          generalize σ (m0.heFace cur) = q at *
          generalize σ fO = r at *
          revert a b p q r
          decide
        · simp only
          split_ifs
          · rfl
          · exact hh
      · have hio' : s.m.isOriented (s.m.heEdge cur) = false := by simpa using hio
        obtain ⟨m1, e1, hr, hv1⟩ := C26 hg.valid ((ht.fL fO).2 hfL)
        refine ⟨⟨m1, fO :: s.stack, fun f => if f = fO then true else s.done f⟩, _, ?_,
          main m1 (fun g => if g = fO then true else φ g) hv1 (ht.invert hg.valid hv0 hφO hr) (fun f e => if_neg e) ?_,
          fun h hl hh => ⟨?_, ?_⟩, hstack, htodo _⟩
        · simp only
          rw [hcond]
          simp only [Bool.false_eq_true, if_false]
          rw [ht.face, ht.sibling, hfO, if_neg hdO, hio']
          simp only [Bool.not_false, if_true, bind, Except.bind, e1]
        · intro σ hσ
          have h1 := hσ cur hm
          rw [hfO] at h1
          rw [hor, hoc, hoS, hφO] at hio'
          rw [if_pos rfl]
          clear * - h1 hio'
          generalize m0.heOrient cur = a at *
          generalize m0.heOrient (m0.heSibling cur) = b at *
          generalize φ (m0.heFace cur) = p at *
          generalize σ (m0.heFace cur) = q at *
          generalize σ fO = r at *
          revert a b p q r
          decide
        · refine (hr.other h (fun x => ?_)).2.1
          rw [ht.face] at x
          rw [x.2, hdO'] at hh; cases hh
        · simp only
          split_ifs
          · rfl
          · exact hh
  · have hcond : (s.m.isBoundary (s.m.heEdge cur) || !s.m.isManifold (s.m.heEdge cur)) = true := by
      by_contra x
      exact hm ((ht.man cur).1 (hmi.1 (by simpa using x)))
    refine ⟨s, φ, ?_, ?_, fun h _ hh => ⟨rfl, hh⟩, fun _ h => h, rfl⟩
    · simp only
      rw [hcond, if_pos rfl]
    · refine ⟨hg.valid, ht, hg.undone, hg.mono, hg.closed0, hg.good0, hg.same, hg.stk, fun h h1 h2 h3 h4 => ?_⟩
      exact hg.work h h1 h2 h3 (fun x => h4 ⟨x, fun e => hm (e ▸ h1)⟩)

theorem greedyFace_ok {m0 : GMesh} (hv0 : m0.Valid) {D0 : ℕ → Bool} {x : ℕ → ℕ} {k : ℕ} {f : ℕ} (hx : ∀ j ≤ k, m0.heL (x j) ∧ m0.heFace (x j) = f)
    (hlast : x (k + 1) = x 0) (hfirst : ∀ j, 0 < j → j ≤ k → x j ≠ x 0) (hD : D0 f = false) :
    ∀ (n i : ℕ) (s : Greedy) (φ : ℕ → Bool), i ≤ k → k + 1 ≤ n + i → s.done f = true →
      GI m0 D0 (fun h => ∃ j, i ≤ j ∧ j ≤ k ∧ h = x j) s φ → (∀ j ≤ k, s.m.heNext (x j) = x (j + 1)) →
      ∃ s' φ', greedyFace (x 0) n s (x i) = .ok s' ∧ GI m0 D0 (fun _ => False) s' φ' ∧ todo m0 s' = todo m0 s ∧
        ∀ g, s.done g = true → s'.done g = true := by
  intro n
  induction n with
  | zero => intro i s φ h1 h2; omega
  | succ n ih =>
    intro i s φ hi hn hd hg hnx
    obtain ⟨hl, hf⟩ := hx i hi
    obtain ⟨s1, φ1, e1, hg1, hkeep, hmono, ht1⟩ := greedyHe_ok hv0 hg hl (by rw [hf]; exact hd) (by rw [hf]; exact hD)
    have hnx1 : ∀ j ≤ k, s1.m.heNext (x j) = x (j + 1) := fun j hj => by
      rw [(hkeep (x j) (hx j hj).1 (by rw [(hx j hj).2]; exact hd)).1]; exact hnx j hj
    have hd1 : s1.done f = true := by
      have := (hkeep (x i) hl (by rw [hf]; exact hd)).2
      rwa [hf] at this
    unfold greedyFace
    rw [e1]
    simp only [bind, Except.bind]
    rw [hnx1 i hi]
    by_cases e : i = k
    · refine ⟨s1, φ1, ?_, ?_, ht1, hmono⟩
      · rw [e, hlast, if_pos rfl]
      · refine ⟨hg1.valid, hg1.turned, hg1.undone, hg1.mono, hg1.closed0, hg1.good0, hg1.same, hg1.stk, fun h a b c _ => ?_⟩
        refine hg1.work h a b c ?_
        rintro ⟨⟨j, hj1, hj2, rfl⟩, hne⟩
        exact hne (by rw [show j = i by omega])
    · rw [if_neg (hfirst (i + 1) (by omega) (by omega))]
      obtain ⟨s2, φ2, e2, hg2, ht2, hm2⟩ := ih (i + 1) s1 φ1 (by omega) (by omega) hd1
        ⟨hg1.valid, hg1.turned, hg1.undone, hg1.mono, hg1.closed0, hg1.good0, hg1.same, hg1.stk, fun h a b c d => by
          refine hg1.work h a b c ?_
          rintro ⟨⟨j, hj1, hj2, rfl⟩, hne⟩
          by_cases y : j = i
          · exact hne (by rw [y])
          · exact d ⟨j, by omega, hj2, rfl⟩⟩ hnx1
      exact ⟨s2, φ2, e2, hg2, ht2.trans ht1, fun g hgd => hm2 g (hmono g hgd)⟩

theorem greedyLoop_ok {m0 : GMesh} (hv0 : m0.Valid) {D0 : ℕ → Bool} :
    ∀ (n : ℕ) (s : Greedy) (φ : ℕ → Bool), todo m0 s < n → GI m0 D0 (fun _ => False) s φ →
      ∃ s' φ', greedyLoop n s = .ok s' ∧ GI m0 D0 (fun _ => False) s' φ' ∧ s'.stack = [] ∧
        ∀ g, s.done g = true → s'.done g = true := by
  intro n
  induction n with
  | zero => intro s φ h; omega
  | succ n ih =>
    intro s φ hn hg
    unfold greedyLoop
    cases hs : s.stack with
    | nil => exact ⟨s, φ, rfl, hg, hs, fun _ h => h⟩
    | cons f rest =>
      obtain ⟨hd, hD, hfL⟩ := hg.stk f (by rw [hs]; simp)
      have ht := hg.turned
      obtain ⟨l, -, hnd, hmem, k, hk, hl, hhit⟩ := hg.valid.faceHalfedges_ok ((ht.fL f).2 hfL)
      have hx : ∀ j ≤ k, m0.heL (s.m.heNext^[j] (s.m.fHalfedge f)) ∧ m0.heFace (s.m.heNext^[j] (s.m.fHalfedge f)) = f := fun j hj => by
        have := (hmem (s.m.heNext^[j] (s.m.fHalfedge f))).1 (by rw [hl]; exact List.mem_map.2 ⟨j, by simp; omega, rfl⟩)
        rw [ht.live, ht.face] at this
        exact this
      have hall : ∀ h, m0.heL h → m0.heFace h = f → ∃ j, 0 ≤ j ∧ j ≤ k ∧ h = s.m.heNext^[j] (s.m.fHalfedge f) := by
        intro h h1 h2
        have := (hmem h).2 ⟨(ht.live h).2 h1, by rw [ht.face]; exact h2⟩
        rw [hl] at this
        obtain ⟨j, hj, e⟩ := List.mem_map.1 this
        exact ⟨j, by omega, by simp at hj; omega, e.symm⟩
      have hfirst : ∀ j, 0 < j → j ≤ k → s.m.heNext^[j] (s.m.fHalfedge f) ≠ s.m.heNext^[0] (s.m.fHalfedge f) := by
        intro j h1 h2 e
        rw [hl] at hnd
        have := List.inj_on_of_nodup_map hnd (x := j) (by simp; omega) (y := 0) (by simp) e
        omega
      obtain ⟨s1, φ1, e1, hg1, ht1, hm1⟩ := greedyFace_ok hv0 (x := fun j => s.m.heNext^[j] (s.m.fHalfedge f)) hx hhit hfirst hD
        s.m.nHeFill 0 { s with stack := rest } φ (by omega) (by omega) hd
        ⟨hg.valid, hg.turned, hg.undone, hg.mono, hg.closed0, hg.good0, hg.same,
          fun g hgm => hg.stk g (by rw [hs]; exact List.mem_cons_of_mem _ hgm), fun h a b c d => by
            refine hg.work h a b ?_ id
            rw [hs, List.mem_cons, not_or]
            exact ⟨fun e => d (hall h a.1 e), c⟩⟩
        (fun j _ => (Function.iterate_succ_apply' s.m.heNext j _).symm)
      have ht0 : todo m0 s = todo m0 { s with stack := rest } + 1 := by
        unfold todo; rw [hs]; simp only [List.length_cons]; omega
      obtain ⟨s2, φ2, e2, hg2, hst, hm2⟩ := ih s1 φ1 (by omega) hg1
      refine ⟨s2, φ2, ?_, hg2, hst, fun g h => hm2 g (hm1 g h)⟩
      simp only
      simp only [Function.iterate_zero, id_eq] at e1
      rw [e1]
      exact e2

/-- **C29, termination and what is changed.**  On every valid mesh the search ends, and what it leaves is a
valid mesh in which some faces have been turned around, and nothing else.  If the mesh can be oriented
across its manifold edges, every manifold interior edge is then traversed in opposite directions by its
two faces. -/
theorem C29 {m : GMesh} (hv : m.Valid) :
    ∃ m' φ, m.greedilyOrientFaces = .ok m' ∧ m'.Valid ∧ Turned m m' φ ∧
      ((∃ σ, m.IsOrientation σ) → ∀ h, m.Man h →
        m'.heOrient h ≠ m'.heOrient (m.heSibling h) ∧
        m'.heVertex h = m'.tip (m.heSibling h) ∧ m'.tip h = m'.heVertex (m.heSibling h)) := by
  have h0 : GI m (fun _ => false) (fun _ => False) ⟨m, [], fun _ => false⟩ (fun _ => false) := by
    refine ⟨hv, ?_, fun _ _ => rfl, fun _ h => (by cases h), fun _ _ h => (by cases h), fun _ _ _ _ h => (by cases h),
      fun _ _ => ⟨true, fun _ h => (by cases h)⟩, fun _ h => (by cases h), fun _ _ h => (by cases h)⟩
    refine ⟨rfl, rfl, rfl, rfl, rfl, fun _ => Iff.rfl, fun _ => Iff.rfl, fun h _ => by simp, fun _ _ _ => ⟨rfl, rfl⟩,
      fun _ _ h => (by cases h), ⟨rfl, rfl⟩, ⟨rfl, rfl, rfl, rfl, rfl⟩⟩
  have key := range_inv (n := m.nFFill) (f := fun (s : Greedy) f =>
      if s.m.fHalfedge f = INV then .ok s
      else if s.done f then .ok s
      else greedyLoop (s.m.nFFill + 1) ⟨s.m, f :: s.stack, fun g => if g = f then true else s.done g⟩)
    (fun i s => s.stack = [] ∧ (∃ φ, GI m s.done (fun _ => False) s φ) ∧ ∀ f, m.fL f → f < i → s.done f = true)
    (s0 := (⟨m, [], fun _ => false⟩ : Greedy)) ⟨rfl, ⟨_, h0⟩, fun _ _ h => by omega⟩ (by
      rintro f s hf ⟨hst, ⟨φ, hg⟩, hdn⟩
      have ht := hg.turned
      by_cases hfi : s.m.fHalfedge f = INV
      · refine ⟨s, by rw [if_pos hfi], hst, ⟨φ, hg⟩, fun g hgl hlt => ?_⟩
        by_cases e : g = f
        · exact absurd (ht.fHe ▸ hfi) (e ▸ hgl.2)
        · exact hdn g hgl (by omega)
      have hfL : m.fL f := ⟨hf, by rw [← ht.fHe]; exact hfi⟩
      by_cases hdf : s.done f = true
      · refine ⟨s, by rw [if_neg hfi, if_pos hdf], hst, ⟨φ, hg⟩, fun g hgl hlt => ?_⟩
        by_cases e : g = f
        · rw [e]; exact hdf
        · exact hdn g hgl (by omega)
      have hdf' : s.done f = false := by simpa using hdf
      have hne : ∀ g, s.done g = true → g ≠ f := fun g h e => by rw [e, hdf'] at h; cases h
      obtain ⟨s1, φ1, e1, hg1, hst1, hm1⟩ := greedyLoop_ok hv (D0 := s.done) (m.nFFill + 1)
        ⟨s.m, f :: s.stack, fun g => if g = f then true else s.done g⟩ φ (by
          unfold todo
          rw [hst]
          have := count_flip (done := s.done) hf hdf'
          have h2 := Nat.count_le (p := fun g => s.done g = false) (n := m.nFFill)
          simp only [List.length_cons, List.length_nil]
          omega)
        ⟨hg.valid, ht, fun g h => by
            simp only at h
            split_ifs at h with e
            exact hg.undone g h, fun g h => by
            simp only; rw [if_neg (hne g h)]; exact h, hg.closed0, hg.good0, fun σ _ => ⟨(φ f ^^ σ f), fun g h1 h2 => by
            simp only at h1
            split_ifs at h1 with e
            · rw [e]
            · rw [h1] at h2; cases h2⟩, fun g h => by
            rw [hst] at h
            simp only [List.mem_singleton] at h
            subst h
            exact ⟨by simp, hdf', hfL⟩, fun h a b c _ => by
            rw [hst] at c
            simp only [List.mem_singleton] at c
            simp only at b ⊢
            rw [if_neg c] at b
            have := hg.closed0 h a b
            rw [if_neg (hne _ this)]; exact this⟩
      refine ⟨s1, ?_, hst1, ⟨φ1, ?_⟩, ?_⟩
      · rw [if_neg hfi, if_neg hdf, ht.fill.2]
        exact e1
      · have cl : ∀ h, m.Man h → s1.done (m.heFace h) = true → s1.done (m.heFace (m.heSibling h)) = true :=
          fun h a b => hg1.work h a b (by rw [hst1]; simp) id
        refine ⟨hg1.valid, hg1.turned, hg1.undone, fun _ h => h, cl, ?_, ?_, ?_, fun h a b _ _ => cl h a b⟩
        · intro σ hσ h a b
          by_cases x : s.done (m.heFace h) = true
          · exact hg1.good0 σ hσ h a x
          · obtain ⟨c, hc⟩ := hg1.same σ hσ
            rw [hc _ b (by simpa using x), hc _ (cl h a b)]
            by_contra y
            have y : s.done (m.heFace (m.heSibling h)) = true := by simpa using y
            have := hg1.closed0 (m.heSibling h) ⟨hv.sib_live h a.1, by rw [a.2.2]; exact fun z => a.2.1 z.symm, by rw [a.2.2]⟩ y
            rw [a.2.2] at this
            exact x this
        · exact fun σ _ => ⟨true, fun g a b => by rw [a] at b; cases b⟩
        · rw [hst1]; simp
      · intro g hgl hlt
        by_cases e : g = f
        · exact hm1 g (by simp only; rw [if_pos e])
        · refine hm1 g ?_
          simp only
          rw [if_neg e]
          exact hdn g hgl (by omega))
  obtain ⟨s, e, -, ⟨φ, hg⟩, hdn⟩ := key
  refine ⟨s.m, φ, ?_, hg.valid, hg.turned, ?_⟩
  · unfold greedilyOrientFaces
    rw [e]; rfl
  · rintro ⟨σ, hσ⟩ h hm
    have ht := hg.turned
    have hfl := hv.face_live h hm.1
    have hok := hg.good0 σ hσ h hm (hdn _ hfl hfl.1)
    have hs := hσ h hm
    have hls := hv.sib_live h hm.1
    have ho : s.m.heOrient h ≠ s.m.heOrient (m.heSibling h) := by
      rw [ht.orient h hm.1, ht.orient _ hls]
      clear * - hok hs
      generalize m.heOrient h = a at *
      generalize m.heOrient (m.heSibling h) = b at *
      generalize φ (m.heFace h) = p at *
      generalize σ (m.heFace h) = q at *
      generalize φ (m.heFace (m.heSibling h)) = r at *
      generalize σ (m.heFace (m.heSibling h)) = t at *
      revert a b p q r t
      decide
    have hal := hg.valid.orient h (m.heSibling h) ((ht.live h).2 hm.1) ((ht.live _).2 hls) (by
      rw [ht.edge, (hv.edge_iff _ _ hm.1 hls).2 (Orb.step _ _)])
    unfold aligned at hal
    rw [if_neg ho] at hal
    exact ⟨ho, hal⟩

/-- Two triangles that traverse their common edge in the same direction. -/
def flag : List (List ℕ) := [[0, 1, 2], [0, 1, 3]]

/-- The keys of `flag`, in some order. -/
def flagOrder : List (ℕ × ℕ) := [(0, 2), (0, 1), (1, 2), (0, 3), (1, 3)]

/-- Whether turning the second face of `flag` orients it, and whether its first halfedge disagrees. -/
def flagCheck (r : Res GMesh) : Bool :=
  match r with
  | .ok m => (List.range 6).all (fun h => m.heSibling h == h || m.heSibling (m.heSibling h) != h ||
      ((m.heOrient h ^^ decide (m.heFace h = 1)) !=
        (m.heOrient (m.heSibling h) ^^ decide (m.heFace (m.heSibling h) = 1)))) &&
      (m.heSibling 0 != 0 && m.heSibling (m.heSibling 0) == 0 && m.heOrient 0 == m.heOrient (m.heSibling 0))
  | .error _ => false

/-- `flag` can be oriented, is not oriented, and comes out oriented. -/
example : ∃ m m', fromPolygons flag flagOrder = .ok m ∧ m.Valid ∧ (∃ σ, m.IsOrientation σ) ∧
    m.greedilyOrientFaces = .ok m' ∧ (∃ h, m.Man h ∧ m.heOrient h = m.heOrient (m.heSibling h)) ∧
    ∀ h, m.Man h → m'.heVertex h = m'.tip (m.heSibling h) ∧ m'.tip h = m'.heVertex (m.heSibling h) := by
  obtain ⟨m, e, hb⟩ := C24 flag flagOrder (by decide) (by decide) (by decide) (by decide) (by decide) (by decide)
  obtain ⟨m', φ, e', -, -, h⟩ := C29 hb.valid
  have hc : flagCheck (fromPolygons flag flagOrder) = true := by decide +kernel
  rw [e] at hc
  simp only [flagCheck, Bool.and_eq_true, List.all_eq_true, List.mem_range] at hc
  obtain ⟨h1, ⟨h2, h3⟩, h4⟩ := hc
  have hσ : m.IsOrientation (fun f => decide (f = 1)) := by
    rintro h ⟨a, b, c⟩
    have := h1 h ((hb.heL h).1 a)
    rw [beq_eq_false_iff_ne.2 b, c, bne_self_eq_false, Bool.false_or, Bool.false_or] at this
    exact bne_iff_ne.1 this
  refine ⟨m, m', e, hb.valid, ⟨_, hσ⟩, e', ⟨0, ⟨(hb.heL 0).2 (by decide), by simpa using h2, by simpa using h3⟩, by simpa using h4⟩, ?_⟩
  exact fun x hx => (h ⟨_, hσ⟩ x hx).2

end GC.GMesh
