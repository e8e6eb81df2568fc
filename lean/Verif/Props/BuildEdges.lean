import Verif.Props.Build

/-!
# C24, second part: edges and siblings
-/

namespace GC.GMesh

/-- The unordered end points of a halfedge. -/
def kf (m : GMesh) (h : ℕ) : ℕ × ℕ := edgeKey (m.heVertex h) (m.heVertex (m.heNext h))

/-- The fields that the edge phase does not touch. -/
structure SameB (m0 m : GMesh) : Prop where
  next : m.heNext = m0.heNext
  vertex : m.heVertex = m0.heVertex
  face : m.heFace = m0.heFace
  vhe : m.vHalfedge = m0.vHalfedge
  fhe : m.fHalfedge = m0.fHalfedge
  he : m.nHe = m0.nHe ∧ m.nInt = m0.nInt ∧ m.nHeFill = m0.nHeFill ∧ m.nHeCap = m0.nHeCap
  v : m.nV = m0.nV ∧ m.nVFill = m0.nVFill ∧ m.nVCap = m0.nVCap
  f : m.nF = m0.nF ∧ m.nFFill = m0.nFFill ∧ m.nFCap = m0.nFCap

/-- `h'` is the last halfedge before `h` (below `h`) on the same side pair. -/
def LastBefore (m0 : GMesh) (k : ℕ × ℕ) (n h' : ℕ) : Prop := h' < n ∧ kf m0 h' = k ∧ ∀ g, h' < g → g < n → kf m0 g ≠ k

structure PB (m0 : GMesh) (n : ℕ) (s : EdgeSt) : Prop where
  same : SameB m0 s.m
  iHe : s.iHe = n
  hist : ∀ k, (s.hist k = none ∧ ∀ h < n, kf m0 h ≠ k) ∨ ∃ h, s.hist k = some h ∧ LastBefore m0 k n h
  sib : ∀ h < n, (s.m.heSibling h = INV ∧ ∀ g < h, kf m0 g ≠ kf m0 h) ∨ LastBefore m0 (kf m0 h) h (s.m.heSibling h)
  edge_lt : ∀ h < n, s.m.heEdge h < s.m.nEFill
  edge : ∀ h < n, ∀ h' < n, (s.m.heEdge h = s.m.heEdge h' ↔ kf m0 h = kf m0 h')
  ehe : ∀ e < s.m.nEFill, s.m.eHalfedge e < n ∧ s.m.heEdge (s.m.eHalfedge e) = e
  orient : ∀ h < n, s.m.heOrient h = (m0.heVertex h == m0.heVertex (s.m.eHalfedge (s.m.heEdge h)))
  cnt : s.m.nE = s.m.nEFill ∧ s.m.nEFill ≤ n ∧ s.m.nEFill ≤ s.m.nECap ∧ s.m.nECap ≤ 2 * s.m.nEFill

theorem getNewEdge_ok {m : GMesh} {t : ℕ} (h1 : m.nE = m.nEFill) (h2 : m.nEFill ≤ m.nECap) (h3 : m.nECap ≤ 2 * m.nEFill)
    (hle : m.nEFill ≤ t) (hlim : 2 * (t + 1) < INV) :
    ∃ m', m.getNewEdge = .ok (m', m.nEFill) ∧ m'.nEFill = m.nEFill + 1 ∧ m'.nE = m.nEFill + 1 ∧
      m'.nEFill ≤ m'.nECap ∧ m'.nECap ≤ 2 * m'.nEFill ∧ m' = { m with
        nECap := m'.nECap, nEFill := m'.nEFill, nE := m'.nE } := by
  unfold getNewEdge
  generalize hc : (if m.nEFill < m.nECap then m.nECap else max (m.nECap * 2) 1) = c
  have h4 : m.nEFill + 1 ≤ c ∧ c ≤ 2 * (m.nEFill + 1) := by
    split_ifs at hc with h <;> omega
  simp only [hc]
  rw [if_neg (by omega), if_neg (by omega)]
  refine ⟨{ m with nECap := c, nEFill := m.nEFill + 1, nE := m.nE + 1 }, rfl, rfl, ?_, h4.1, h4.2, rfl⟩
  simp only; omega

theorem addSide_ok {m0 : GMesh} {n : ℕ} {s : EdgeSt} (hp : PB m0 n s) {sd : ℕ × ℕ}
    (hsd : sd = (m0.heVertex n, m0.heVertex (m0.heNext n))) (hlim : 2 * (n + 1) < INV) :
    ∃ s', addSide s sd = .ok s' ∧ PB m0 (n + 1) s' := by
  obtain ⟨c1, c2, c3, c4⟩ := hp.cnt
  have hk : edgeKey sd.1 sd.2 = kf m0 n := by rw [hsd]; rfl
  have hi := hp.iHe
  unfold addSide
  simp only [hk, hi]
  have lt_cases : ∀ h, h < n + 1 → h = n ∨ (h < n ∧ h ≠ n) := fun h hh => by omega
  have histStep : ∀ k, ((fun k => if k = kf m0 n then some n else s.hist k) k = none ∧ ∀ h < n + 1, kf m0 h ≠ k) ∨
      ∃ h, (fun k => if k = kf m0 n then some n else s.hist k) k = some h ∧ LastBefore m0 k (n + 1) h := by
    intro k
    by_cases e : k = kf m0 n
    · exact .inr ⟨n, by simp [e], by omega, e.symm, fun g h1 h2 => by omega⟩
    · rcases hp.hist k with ⟨a, b⟩ | ⟨h, a, b, c, d⟩
      · refine .inl ⟨by simp [e, a], fun h hh => ?_⟩
        rcases lt_cases h hh with rfl | ⟨h1, -⟩
        · exact fun x => e x.symm
        · exact b h h1
      · refine .inr ⟨h, by simp [e, a], by omega, c, fun g h1 h2 => ?_⟩
        rcases lt_cases g h2 with rfl | ⟨h3, -⟩
        · exact fun x => e x.symm
        · exact d g h1 h3
  rcases hp.hist (kf m0 n) with ⟨hn, hnew⟩ | ⟨q, hq, hql, hqk, hqm⟩
  · simp only [hn]
    obtain ⟨m1, e1, f1, f2, f3, f4, f5⟩ := getNewEdge_ok (t := n) c1 c3 c4 c2 hlim
    rw [e1]
    simp only [bind, Except.bind]
    refine ⟨_, rfl, ?_⟩
    have eE : m1.heEdge = s.m.heEdge := by rw [f5]
    have eS : m1.heSibling = s.m.heSibling := by rw [f5]
    have eO : m1.heOrient = s.m.heOrient := by rw [f5]
    have eH : m1.eHalfedge = s.m.eHalfedge := by rw [f5]
    have hsame : SameB m0 m1 := by
      rw [f5]; exact ⟨hp.same.next, hp.same.vertex, hp.same.face, hp.same.vhe, hp.same.fhe, hp.same.he, hp.same.v, hp.same.f⟩
    clear f5 e1
    have hne : ∀ h < n, s.m.heEdge h ≠ s.m.nEFill := fun h hh => (hp.edge_lt h hh).ne
    refine ⟨⟨hsame.next, hsame.vertex, hsame.face, hsame.vhe, hsame.fhe, hsame.he, hsame.v, hsame.f⟩, rfl, histStep,
      ?_, ?_, ?_, ?_, ?_, ⟨by simp only; omega, by simp only; omega, f3, f4⟩⟩
    · intro h hh
      simp only [eS]
      rcases lt_cases h hh with rfl | ⟨h1, h2⟩
      · rw [upd_same]; exact .inl ⟨rfl, hnew⟩
      · rw [upd_ne _ _ h2]; exact hp.sib h h1
    · intro h hh
      simp only [eE, f1]
      rcases lt_cases h hh with rfl | ⟨h1, h2⟩
      · rw [upd_same]; omega
      · rw [upd_ne _ _ h2]; have := hp.edge_lt h h1; omega
    · intro h hh h' hh'
      simp only [eE]
      rcases lt_cases h hh with rfl | ⟨h1, h2⟩
      · rcases lt_cases h' hh' with rfl | ⟨h3, h4⟩
        · simp
        · rw [upd_same, upd_ne _ _ h4]
          exact ⟨fun x => absurd x.symm (hne h' h3), fun x => absurd x.symm (hnew h' h3)⟩
      · rcases lt_cases h' hh' with rfl | ⟨h3, h4⟩
        · rw [upd_same, upd_ne _ _ h2]
          exact ⟨fun x => absurd x (hne h h1), fun x => absurd x (hnew h h1)⟩
        · rw [upd_ne _ _ h2, upd_ne _ _ h4]; exact hp.edge h h1 h' h3
    · intro e he
      simp only [eE, eH]
      simp only [f1] at he
      by_cases e' : e = s.m.nEFill
      · subst e'; rw [upd_same, upd_same]; exact ⟨by omega, rfl⟩
      · rw [upd_ne _ _ e']
        obtain ⟨a, b⟩ := hp.ehe e (by omega)
        rw [upd_ne _ _ (show s.m.eHalfedge e ≠ n by omega)]
        exact ⟨by omega, b⟩
    · intro h hh
      simp only [eE, eH, eO]
      rcases lt_cases h hh with rfl | ⟨h1, h2⟩
      · simp
      · rw [if_neg h2, upd_ne _ _ h2, upd_ne _ _ (hne h h1)]; exact hp.orient h h1
  · simp only [hq]
    refine ⟨_, rfl, ?_⟩
    refine ⟨⟨hp.same.next, hp.same.vertex, hp.same.face, hp.same.vhe, hp.same.fhe, hp.same.he, hp.same.v, hp.same.f⟩, rfl,
      histStep, ?_, ?_, ?_, ?_, ?_, ⟨c1, by simp only; omega, c3, c4⟩⟩
    · intro h hh
      simp only
      rcases lt_cases h hh with rfl | ⟨h1, h2⟩
      · rw [upd_same]; exact .inr ⟨hql, hqk, hqm⟩
      · rw [upd_ne _ _ h2]; exact hp.sib h h1
    · intro h hh
      simp only
      rcases lt_cases h hh with rfl | ⟨h1, h2⟩
      · rw [upd_same]; exact hp.edge_lt q hql
      · rw [upd_ne _ _ h2]; exact hp.edge_lt h h1
    · intro h hh h' hh'
      simp only
      rcases lt_cases h hh with rfl | ⟨h1, h2⟩
      · rcases lt_cases h' hh' with rfl | ⟨h3, h4⟩
        · simp
        · rw [upd_same, upd_ne _ _ h4, hp.edge q hql h' h3, hqk]
      · rcases lt_cases h' hh' with rfl | ⟨h3, h4⟩
        · rw [upd_same, upd_ne _ _ h2, hp.edge h h1 q hql, hqk]
        · rw [upd_ne _ _ h2, upd_ne _ _ h4]; exact hp.edge h h1 h' h3
    · intro e he
      simp only
      obtain ⟨a, b⟩ := hp.ehe e he
      rw [upd_ne _ _ (show s.m.eHalfedge e ≠ n by omega)]
      exact ⟨by omega, b⟩
    · intro h hh
      simp only
      rcases lt_cases h hh with rfl | ⟨h1, h2⟩
      · rw [if_pos rfl, upd_same, hp.same.vertex]
      · rw [if_neg h2, upd_ne _ _ h2]; exact hp.orient h h1

/-! ### Closing the sibling cycles -/

/-- After the keys `P` have been visited. -/
structure PC (m0 : GMesh) (T : ℕ) (s : EdgeSt) (P : List (ℕ × ℕ)) (m : GMesh) : Prop where
  eq : m = { s.m with heSibling := m.heSibling }
  sib : ∀ h < T, LastBefore m0 (kf m0 h) h (m.heSibling h) ∨ ((∀ g < h, kf m0 g ≠ kf m0 h) ∧
    (kf m0 h ∈ P → LastBefore m0 (kf m0 h) T (m.heSibling h)) ∧ (kf m0 h ∉ P → m.heSibling h = INV))

theorem walkBack_ok {m0 : GMesh} {T : ℕ} {s : EdgeSt} {P : List (ℕ × ℕ)} {m : GMesh} (hp : PC m0 T s P m) (hT : T < INV)
    {k : ℕ × ℕ} (hk : k ∉ P) : ∀ n cur, cur < n → cur < T → kf m0 cur = k →
    ∃ q, walkBack m.heSibling n cur = .ok q ∧ q < T ∧ kf m0 q = k ∧ ∀ g < q, kf m0 g ≠ k
  | 0, cur, h, _, _ => by omega
  | n + 1, cur, h, hc, hck => by
    unfold walkBack
    rcases hp.sib cur hc with ⟨a, b, c⟩ | ⟨a, b, c⟩
    · rw [if_neg (by omega)]
      exact walkBack_ok hp hT hk n _ (by omega) (by omega) (by rw [b, hck])
    · rw [hck] at c
      rw [if_pos (c hk)]
      exact ⟨cur, rfl, hc, hck, by rw [← hck]; exact a⟩

theorem closeCycle_ok {m0 : GMesh} {T : ℕ} {s : EdgeSt} {P : List (ℕ × ℕ)} {m : GMesh} (hb : PB m0 T s) (hp : PC m0 T s P m)
    (hT : T < INV) (hfill : m.nHeFill = T) {k : ℕ × ℕ} (hk : k ∉ P) :
    ∃ m', closeCycle s.hist m k = .ok m' ∧ PC m0 T s (P ++ [k]) m' := by
  unfold closeCycle
  have hmem : ∀ h, kf m0 h ≠ k → (kf m0 h ∈ P ++ [k] ↔ kf m0 h ∈ P) := fun h hh => by simp [hh]
  rcases hb.hist k with ⟨hn, hnone⟩ | ⟨q, hq, hql⟩
  · simp only [hn]
    refine ⟨m, rfl, hp.eq, fun h hh => ?_⟩
    rw [hmem h (hnone h hh)]
    exact hp.sib h hh
  · simp only [hq]
    -- in both branches the first halfedge is linked to the last one
    have main : ∀ f, f < T → kf m0 f = k → (∀ g < f, kf m0 g ≠ k) →
        PC m0 T s (P ++ [k]) { m with heSibling := upd m.heSibling f q } := by
      intro f hf hfk hfm
      refine ⟨?_, fun h hh => ?_⟩
      · have := hp.eq
        rw [this]
      · simp only
        by_cases e : h = f
        · subst e
          rw [upd_same, hfk]
          exact .inr ⟨hfm, fun _ => hql, fun x => absurd (by simp) x⟩
        · rw [upd_ne _ _ e]
          rcases hp.sib h hh with a | ⟨a, b, c⟩
          · exact .inl a
          · have hkk : kf m0 h ≠ k := by
              intro x
              rcases Nat.lt_trichotomy h f with y | y | y
              · exact hfm h y x
              · exact e y
              · exact a f y (by rw [hfk, x])
            rw [hmem h hkk]
            exact .inr ⟨a, b, c⟩
    obtain ⟨hq1, hq2, hq3⟩ := hql
    by_cases hs : m.heSibling q = INV
    · rw [if_pos hs]
      refine ⟨_, rfl, main q hq1 hq2 ?_⟩
      rcases hp.sib q hq1 with ⟨a, -⟩ | ⟨a, -⟩
      · omega
      · rw [← hq2]; exact a
    · rw [if_neg hs]
      obtain ⟨f, hf, h1, h2, h3⟩ := walkBack_ok hp hT hk m.nHeFill q (by omega) hq1 hq2
      rw [hf]
      exact ⟨_, rfl, main f h1 h2 h3⟩

/-- The finished sibling cycles. -/
structure Cycles (m0 : GMesh) (T : ℕ) (sib : ℕ → ℕ) : Prop where
  sib : ∀ h < T, LastBefore m0 (kf m0 h) h (sib h) ∨ ((∀ g < h, kf m0 g ≠ kf m0 h) ∧ LastBefore m0 (kf m0 h) T (sib h))

theorem Cycles.lt {m0 : GMesh} {T : ℕ} {sib : ℕ → ℕ} (hc : Cycles m0 T sib) {h : ℕ} (hh : h < T) :
    sib h < T ∧ kf m0 (sib h) = kf m0 h := by
  rcases hc.sib h hh with ⟨a, b, -⟩ | ⟨-, a, b, -⟩
  · exact ⟨by omega, b⟩
  · exact ⟨a, b⟩

theorem Cycles.first {m0 : GMesh} {T : ℕ} {sib : ℕ → ℕ} (hc : Cycles m0 T sib) {k : ℕ × ℕ} : ∀ {h}, h < T → kf m0 h = k →
    ∃ l, LastBefore m0 k T l ∧ Orb sib h l := by
  intro h
  induction h using Nat.strong_induction_on with
  | _ h ih =>
    intro hh hk
    rcases hc.sib h hh with ⟨a, b, c⟩ | ⟨a, b⟩
    · obtain ⟨l, hl, ho⟩ := ih _ a (by omega) (by rw [b, hk])
      exact ⟨l, hl, ho.head⟩
    · rw [hk] at b
      exact ⟨_, b, Orb.step _ _⟩

theorem Cycles.last {m0 : GMesh} {T : ℕ} {sib : ℕ → ℕ} (hc : Cycles m0 T sib) {k : ℕ × ℕ} {l : ℕ} (hl : LastBefore m0 k T l) :
    ∀ d h, T - h ≤ d → h < T → kf m0 h = k → Orb sib l h
  | 0, h, hd, hh, _ => by omega
  | d + 1, h, hd, hh, hk => by
    obtain ⟨hl1, hl2, hl3⟩ := hl
    by_cases e : h = l
    · subst e; exact Orb.refl _ _
    · have hlt : h < l := by
        rcases Nat.lt_trichotomy h l with x | x | x
        · exact x
        · exact absurd x e
        · exact absurd hk (hl3 h x hh)
      -- the next one with this key
      have hex : ∃ g, h < g ∧ g < T ∧ kf m0 g = k := ⟨l, hlt, hl1, hl2⟩
      classical
      obtain ⟨h1, h2, h3⟩ := Nat.find_spec hex
      have hmin : ∀ g, g < Nat.find hex → ¬ (h < g ∧ g < T ∧ kf m0 g = k) := fun g hg => Nat.find_min hex hg
      generalize Nat.find hex = g at *
      have ih := Cycles.last hc ⟨hl1, hl2, hl3⟩ d g (by omega) h2 h3
      have hs : sib g = h := by
        rcases hc.sib g h2 with ⟨a, b, c⟩ | ⟨a, -⟩
        · rcases Nat.lt_trichotomy (sib g) h with x | x | x
          · exact absurd (by rw [hk, h3]) (c h x h1)
          · exact x
          · exact absurd ⟨x, by omega, by rw [b, h3]⟩ (hmin _ a)
        · exact absurd (by rw [hk, h3]) (a h h1)
      rw [← hs]
      exact ih.tail

theorem Cycles.orb {m0 : GMesh} {T : ℕ} {sib : ℕ → ℕ} (hc : Cycles m0 T sib) {h h' : ℕ} (hh : h < T) (hh' : h' < T)
    (hk : kf m0 h = kf m0 h') : Orb sib h h' := by
  obtain ⟨l, hl, ho⟩ := hc.first hh rfl
  exact ho.trans (hc.last hl _ h' le_rfl hh' hk.symm)

/-! ### The constructor -/

theorem foldl_max_le (l : List ℕ) : ∀ a, a ≤ l.foldl max a ∧ ∀ x ∈ l, x ≤ l.foldl max a := by
  induction l with
  | nil => intro a; exact ⟨le_rfl, by simp⟩
  | cons y l ih =>
    intro a
    obtain ⟨h1, h2⟩ := ih (max a y)
    rw [List.foldl_cons]
    refine ⟨(le_max_left a y).trans h1, fun x hx => ?_⟩
    rcases List.mem_cons.1 hx with rfl | hx
    · exact (le_max_right a x).trans h1
    · exact h2 x hx

theorem foldl_max_mem (l : List ℕ) : ∀ a, l.foldl max a = a ∨ l.foldl max a ∈ l := by
  induction l with
  | nil => intro a; exact .inl rfl
  | cons y l ih =>
    intro a
    rw [List.foldl_cons]
    rcases ih (max a y) with h | h
    · rcases Nat.le_total a y with hy | hy
      · rw [Nat.max_eq_right hy] at h ⊢
        right; rw [h]; exact List.mem_cons_self
      · rw [Nat.max_eq_left hy] at h ⊢
        exact .inl h
    · exact .inr (List.mem_cons_of_mem _ h)

theorem length_le_flatten (polys : List (List ℕ)) (h3 : ∀ p ∈ polys, 3 ≤ p.length) : polys.length ≤ polys.flatten.length := by
  induction polys with
  | nil => simp
  | cons p ps ih =>
    have := h3 p List.mem_cons_self
    have := ih (fun q hq => h3 q (List.mem_cons_of_mem _ hq))
    rw [List.flatten_cons, List.length_append, List.length_cons]; omega

theorem count_all {p : ℕ → Prop} [DecidablePred p] {n : ℕ} (h : ∀ i < n, p i) : Nat.count p n = n := by
  induction n with
  | zero => simp
  | succ n ih => rw [Nat.count_succ, ih (fun i hi => h i (by omega)), if_pos (h n (by omega))]

/-- The pairs agree, in either order. -/
def samePair (a b c d : ℕ) : Prop := (a = c ∧ b = d) ∨ (a = d ∧ b = c)

theorem edgeKey_eq {a b c d : ℕ} : edgeKey a b = edgeKey c d ↔ samePair a b c d := by
  unfold edgeKey samePair
  rw [Prod.mk.injEq]
  omega

/-- What the constructor produces. -/
structure Built (polys : List (List ℕ)) (m : GMesh) : Prop where
  valid : m.Valid
  /-- one interior halfedge for every side, one face for every polygon -/
  he : m.nHe = polys.flatten.length ∧ m.nInt = polys.flatten.length ∧ m.nHeFill = polys.flatten.length
  f : m.nF = polys.length ∧ m.nFFill = polys.length
  v : ∀ v, m.vL v ↔ v ∈ polys.flatten
  fL : ∀ f, m.fL f ↔ f < polys.length
  heL : ∀ h, m.heL h ↔ h < polys.flatten.length
  e : m.nEFill = m.nE ∧ m.nE ≤ m.nHe
  /-- face `f` is the polygon `f`, beginning at its first vertex -/
  face : ∀ f (hf : f < polys.length), ∃ l, m.faceHalfedges f = .ok l ∧ l.map m.heVertex = polys[f]
  /-- halfedges are on the same edge iff they have the same end points -/
  edge : ∀ i j, m.heL i → m.heL j → (m.heEdge i = m.heEdge j ↔ samePair (m.heVertex i) (m.tip i) (m.heVertex j) (m.tip j))
  /-- and the sibling cycle visits exactly these, once each -/
  sib : ∀ i, m.heL i → ∃ l, orbitList m.heSibling i m.nHeFill = .ok l ∧ l.Nodup ∧
    ∀ j, j ∈ l ↔ m.heL j ∧ samePair (m.heVertex j) (m.tip j) (m.heVertex i) (m.tip i)
  /-- for every side of a polygon there is exactly one edge with these end points -/
  side : ∀ sd ∈ sides polys, ∃! e, m.eL e ∧
    samePair (m.heVertex (m.eHalfedge e)) (m.tip (m.eHalfedge e)) sd.1 sd.2
  /-- and no other edges -/
  noother : ∀ e, m.eL e → ∃ sd ∈ sides polys,
    samePair (m.heVertex (m.eHalfedge e)) (m.tip (m.eHalfedge e)) sd.1 sd.2
  orient : ∀ i, m.heL i → (m.heOrient i = true ↔
    m.heVertex i = m.heVertex (m.eHalfedge (m.heEdge i)) ∧ m.tip i = m.tip (m.eHalfedge (m.heEdge i)))

theorem block_orbit {next : ℕ → ℕ} {b d : ℕ} (hd : 0 < d) (hn : ∀ i < d, next (b + i) = b + (i + 1) % d) :
    ∀ k, next^[k] b = b + k % d := by
  intro k
  induction k with
  | zero => simp
  | succ k ih =>
    rw [Function.iterate_succ_apply', ih, hn _ (Nat.mod_lt _ hd), Nat.mod_add_mod]

/-- **C24.**  The general constructor, for every list of polygons with at least three corners each in
which no vertex index is left out, manifold or not, and for every visiting order of the hash map. -/
theorem C24 (polys : List (List ℕ)) (order : List (ℕ × ℕ)) (h3 : ∀ p ∈ polys, 3 ≤ p.length) (hne : polys ≠ [])
    (hused : ∀ v ∈ polys.flatten, ∀ w ≤ v, w ∈ polys.flatten) (hsize : 2 * (polys.flatten.length + 1) < INV)
    (hnd : order.Nodup) (hord : ∀ sd ∈ sides polys, edgeKey sd.1 sd.2 ∈ order) :
    ∃ m, fromPolygons polys order = .ok m ∧ Built polys m := by
  unfold fromPolygons
  rw [if_neg (by
    simp only [List.any_eq_true, decide_eq_true_eq, not_exists, not_and]
    intro p hp; have := h3 p hp; omega)]
  have hfne : polys.flatten ≠ [] := by
    obtain ⟨p, hp⟩ := List.exists_mem_of_ne_nil _ hne
    intro e
    rw [List.flatten_eq_nil_iff] at e
    have := h3 p hp
    rw [e p hp] at this; simp at this
  generalize hnV : polys.flatten.foldl max 0 + 1 = nV
  have hVmem : ∀ v, v < nV ↔ v ∈ polys.flatten := by
    intro v
    constructor
    · intro hv
      rcases foldl_max_mem polys.flatten 0 with e | e
      · obtain ⟨x, hx⟩ := List.exists_mem_of_ne_nil _ hfne
        have := (foldl_max_le polys.flatten 0).2 x hx
        have hv0 : v = x := by omega
        rw [hv0]; exact hx
      · exact hused _ e v (by omega)
    · intro hv
      have := (foldl_max_le polys.flatten 0).2 v hv
      omega
  have hVle : nV ≤ polys.flatten.length := by
    have : (List.range nV).Subperm polys.flatten :=
      List.subperm_of_subset List.nodup_range (fun v hv => (hVmem v).1 (List.mem_range.1 hv))
    have := this.length_le
    rwa [List.length_range] at this
  have hFle := length_le_flatten polys h3
  generalize hT : polys.flatten.length = T at *
  simp only
  rw [if_neg (show ¬ (INV ≤ nV ∨ INV ≤ polys.length) by omega)]
  obtain ⟨m0, e0, hA⟩ := facesLoop_ok h3 nV (by rw [hT]; exact hsize)
  rw [e0]
  simp only [bind, Except.bind]
  rw [if_neg (by
    simp only [List.any_eq_true, List.mem_range, Bool.not_eq_true', not_exists, not_and, Bool.not_eq_false]
    intro v hv
    rw [List.contains_iff_mem]
    exact (hVmem v).1 hv)]
  have hsd := hA.sd
  have hnl := hA.next_lt
  have hfl := hA.face_lt
  have hblk := hA.block
  have hin := hA.inblock
  have hvh := hA.vhe
  have hst := hA.store
  rw [hT] at hst
  simp only [hT] at hsd hnl hfl hblk hin hvh
  -- the edges
  have hB0 : PB m0 0 ⟨m0, fun _ => none, 0⟩ := by
    refine ⟨⟨rfl, rfl, rfl, rfl, rfl, ⟨rfl, rfl, rfl, rfl⟩, ⟨rfl, rfl, rfl⟩, ⟨rfl, rfl, rfl⟩⟩, rfl, ?_, ?_, ?_, ?_, ?_, ?_, ?_⟩
    · intro k; exact .inl ⟨rfl, by simp⟩
    · simp
    · simp
    · simp
    · intro e he; simp only [hA.same.e.2.1] at he; omega
    · simp
    · simp [hA.same.e.1, hA.same.e.2.1, hA.same.e.2.2]
  have hlen : (sides polys).length = T := by rw [sides_length, hT]
  obtain ⟨s, e1, hB⟩ := foldlM_inv (f := addSide) (l := sides polys) (fun p s => PB m0 p.length s) hB0 (by
    intro p x q s hq hP
    have hpl := congrArg List.length hq
    rw [hlen] at hpl
    simp at hpl
    have hx : (sides polys)[p.length]? = some x := by rw [hq]; simp
    rw [hsd p.length (by omega)] at hx
    obtain ⟨s', a, b⟩ := addSide_ok hP (Option.some.inj hx).symm (by omega)
    exact ⟨s', a, by simpa using b⟩)
  rw [e1]
  simp only
  rw [hlen] at hB
  have hTI : T < INV := by omega
  have hC0 : PC m0 T s [] s.m := by
    refine ⟨rfl, fun h hh => ?_⟩
    rcases hB.sib h hh with ⟨a, b⟩ | a
    · exact .inr ⟨b, fun x => absurd x (by simp), fun _ => a⟩
    · exact .inl a
  obtain ⟨m1, e2, hC⟩ := foldlM_inv (f := closeCycle s.hist) (l := order) (PC m0 T s) hC0 (by
    intro p x q m hq hP
    refine closeCycle_ok hB hP hTI ?_ ?_
    · rw [hP.eq]; simp only; rw [hB.same.he.2.2.1, hst.fill]
    · rw [hq, List.nodup_append] at hnd
      intro hx
      exact hnd.2.2 x hx x (by simp) rfl)
  rw [e2]
  simp only
  refine ⟨_, rfl, ?_⟩
  -- the finished mesh, before the vertex lists
  have hcyc : Cycles m0 T m1.heSibling := by
    refine ⟨fun h hh => ?_⟩
    rcases hC.sib h hh with a | ⟨a, b, -⟩
    · exact .inl a
    · refine .inr ⟨a, b (hord (m0.heVertex h, m0.heVertex (m0.heNext h)) ?_)⟩
      exact List.mem_of_getElem? (hsd h hh)
  have eN : m1.heNext = m0.heNext := by rw [hC.eq]; exact hB.same.next
  have eV : m1.heVertex = m0.heVertex := by rw [hC.eq]; exact hB.same.vertex
  have eF : m1.heFace = m0.heFace := by rw [hC.eq]; exact hB.same.face
  have evh : m1.vHalfedge = m0.vHalfedge := by rw [hC.eq]; exact hB.same.vhe
  have efh : m1.fHalfedge = m0.fHalfedge := by rw [hC.eq]; exact hB.same.fhe
  have eE : m1.heEdge = s.m.heEdge := by rw [hC.eq]
  have eO : m1.heOrient = s.m.heOrient := by rw [hC.eq]
  have eH : m1.eHalfedge = s.m.eHalfedge := by rw [hC.eq]
  have cHe : m1.nHe = T ∧ m1.nInt = T ∧ m1.nHeFill = T ∧ m1.nHeCap = m0.nHeCap := by
    rw [hC.eq]; simp only; obtain ⟨a, b, c, d⟩ := hB.same.he; rw [a, b, c, d, hst.he, hst.int, hst.fill]; simp
  have cV : m1.nV = nV ∧ m1.nVFill = nV ∧ m1.nVCap = nV := by
    rw [hC.eq]; simp only; obtain ⟨a, b, c⟩ := hB.same.v; rw [a, b, c]; exact hA.same.v
  have cF : m1.nF = polys.length ∧ m1.nFFill = polys.length ∧ m1.nFCap = polys.length := by
    rw [hC.eq]; simp only; obtain ⟨a, b, c⟩ := hB.same.f; rw [a, b, c]; exact hA.same.f
  have cE : m1.nE = s.m.nEFill ∧ m1.nEFill = s.m.nEFill ∧ m1.nECap = s.m.nECap := by
    rw [hC.eq]; exact ⟨hB.cnt.1, rfl, rfl⟩
  clear hC e2 e1 e0 hB0 hC0
  generalize hm : m1.initNeighbors = m
  have hrin : m.rin = m1.rin.init (fun h => m1.heNext h == INV) (fun v => m1.vHalfedge v == INV) m1.tip m1.nHeFill m1.nVFill := by
    rw [← hm]; rfl
  have hrout : m.rout = m1.rout.init (fun h => m1.heNext h == INV) (fun v => m1.vHalfedge v == INV) m1.heVertex m1.nHeFill m1.nVFill := by
    rw [← hm]; rfl
  have eN' : m.heNext = m0.heNext := by rw [← hm]; exact eN
  have eV' : m.heVertex = m0.heVertex := by rw [← hm]; exact eV
  have eF' : m.heFace = m0.heFace := by rw [← hm]; exact eF
  have evh' : m.vHalfedge = m0.vHalfedge := by rw [← hm]; exact evh
  have efh' : m.fHalfedge = m0.fHalfedge := by rw [← hm]; exact efh
  have eE' : m.heEdge = s.m.heEdge := by rw [← hm]; exact eE
  have eO' : m.heOrient = s.m.heOrient := by rw [← hm]; exact eO
  have eH' : m.eHalfedge = s.m.eHalfedge := by rw [← hm]; exact eH
  have eS' : m.heSibling = m1.heSibling := by rw [← hm]; rfl
  have cHe' : m.nHe = T ∧ m.nInt = T ∧ m.nHeFill = T ∧ m.nHeCap = m0.nHeCap := by rw [← hm]; exact cHe
  have cV' : m.nV = nV ∧ m.nVFill = nV ∧ m.nVCap = nV := by rw [← hm]; exact cV
  have cF' : m.nF = polys.length ∧ m.nFFill = polys.length ∧ m.nFCap = polys.length := by rw [← hm]; exact cF
  have cE' : m.nE = s.m.nEFill ∧ m.nEFill = s.m.nEFill ∧ m.nECap = s.m.nECap := by rw [← hm]; exact cE
  clear hm
  have htip : m.tip = fun h => m0.heVertex (m0.heNext h) := by funext h; unfold tip; rw [eN', eV']
  have htip1 : m1.tip = fun h => m0.heVertex (m0.heNext h) := by funext h; unfold tip; rw [eN, eV]
  have hkf : ∀ i j, kf m0 i = kf m0 j ↔ samePair (m.heVertex i) (m.tip i) (m.heVertex j) (m.tip j) := by
    intro i j
    rw [eV', htip]
    exact edgeKey_eq
  -- live elements
  have hnI : ∀ h < T, m0.heNext h ≠ INV := fun h hh => by have := hnl h hh; omega
  have hL : ∀ h, m.heL h ↔ h < T := by
    intro h
    unfold heL
    rw [cHe'.2.2.1, eN']
    exact ⟨fun x => x.1, fun x => ⟨x, hnI h x⟩⟩
  have hvert : ∀ h < T, m0.heVertex h < nV := by
    intro h hh
    obtain ⟨i, hi, e⟩ := hin h hh
    have hf := hfl h hh
    have := ((hblk _ hf).2 i hi).2.1
    rw [← e] at this
    rw [hVmem, this]
    exact List.mem_flatten.2 ⟨_, List.getElem_mem hf, List.getElem_mem hi⟩
  have hvI : ∀ v < nV, m0.vHalfedge v < T ∧ m0.heVertex (m0.vHalfedge v) = v := by
    intro v hv
    rcases hvh v with ⟨-, a⟩ | a
    · exact absurd ((hVmem v).1 hv) a
    · exact a
  have hvL : ∀ v, m.vL v ↔ v < nV := by
    intro v
    unfold vL
    rw [cV'.2.1, evh']
    refine ⟨fun x => x.1, fun x => ⟨x, ?_⟩⟩
    have := (hvI v x).1
    omega
  have hpos : ∀ f (hf : f < polys.length), 0 < polys[f].length := fun f hf => by
    have := h3 _ (List.getElem_mem hf); omega
  have hfh : ∀ f < polys.length, m0.fHalfedge f < T ∧ m0.heFace (m0.fHalfedge f) = f := by
    intro f hf
    obtain ⟨a, b⟩ := hblk f hf
    have hp := hpos f hf
    exact ⟨by omega, by simpa using (b 0 hp).2.2⟩
  have hfL : ∀ f, m.fL f ↔ f < polys.length := by
    intro f
    unfold fL
    rw [cF'.2.1, efh']
    refine ⟨fun x => x.1, fun x => ⟨x, ?_⟩⟩
    have := (hfh f x).1
    omega
  have heL' : ∀ e, m.eL e ↔ e < s.m.nEFill := by
    intro e
    unfold eL
    rw [cE'.2.1, eH']
    refine ⟨fun x => x.1, fun x => ⟨x, ?_⟩⟩
    have := (hB.ehe e x).1
    omega
  -- faces
  have hit : ∀ f (hf : f < polys.length) k, m0.heNext^[k] (m0.fHalfedge f) = m0.fHalfedge f + k % polys[f].length :=
    fun f hf => block_orbit (hpos f hf) (fun i hi => ((hblk f hf).2 i hi).1)
  have hfnext : ∀ h < T, m0.heFace (m0.heNext h) = m0.heFace h := by
    intro h hh
    obtain ⟨i, hi, e⟩ := hin h hh
    have hf := hfl h hh
    obtain ⟨a, b⟩ := hblk _ hf
    have := (b i hi).1
    rw [← e] at this
    rw [this]
    exact (b _ (Nat.mod_lt _ (hpos _ hf))).2.2
  have hforb : ∀ h h', h < T → h' < T → m0.heFace h = m0.heFace h' → Orb m0.heNext h h' := by
    intro h h' hh hh' e
    obtain ⟨i, hi, ei⟩ := hin h hh
    obtain ⟨j, hj, ej⟩ := hin h' hh'
    have hf := hfl h hh
    have hi' := hit _ hf
    have hj' : j < polys[m0.heFace h].length := by simp only [e]; exact hj
    rw [← e] at ej
    -- i + (d - i + j) = j mod d
    refine ⟨polys[m0.heFace h].length - i + j, ?_⟩
    have h1 : m0.heNext^[i] (m0.fHalfedge (m0.heFace h)) = h := by
      rw [hi', Nat.mod_eq_of_lt hi]; exact ei.symm
    have h2 : ∀ n, m0.heNext^[n] h = m0.heNext^[n + i] (m0.fHalfedge (m0.heFace h)) := fun n => by
      rw [Function.iterate_add_apply, h1]
    rw [ej, h2, hi',
      show polys[m0.heFace h].length - i + j + i = j + polys[m0.heFace h].length by omega, Nat.add_mod_right,
      Nat.mod_eq_of_lt hj']
  have hkeyF : KeyOrb m.heNext (fun h => if m.heL h then some (m.heFace h) else none) := by
    have hs : ∀ h v, (if m.heL h then some (m.heFace h) else none) = some v ↔ h < T ∧ m0.heFace h = v := by
      intro h v; rw [eF', ← hL]; split_ifs with hh <;> simp [hh]
    refine ⟨fun h v hA' => ?_, fun h h' v hA' hA'' => ?_⟩
    · rw [hs] at hA' ⊢
      rw [eN']
      exact ⟨hnl h hA'.1, by rw [hfnext h hA'.1]; exact hA'.2⟩
    · rw [hs] at hA' hA''
      rw [eN']
      exact hforb h h' hA'.1 hA''.1 (by rw [hA'.2, hA''.2])
  have hkeyE : KeyOrb m.heSibling (fun h => if m.heL h then some (m.heEdge h) else none) := by
    have hs : ∀ h v, (if m.heL h then some (m.heEdge h) else none) = some v ↔ h < T ∧ s.m.heEdge h = v := by
      intro h v; rw [eE', ← hL]; split_ifs with hh <;> simp [hh]
    refine ⟨fun h v hA' => ?_, fun h h' v hA' hA'' => ?_⟩
    · rw [hs] at hA' ⊢
      rw [eS']
      obtain ⟨a, b⟩ := hcyc.lt hA'.1
      exact ⟨a, by rw [(hB.edge _ a h hA'.1).2 b]; exact hA'.2⟩
    · rw [hs] at hA' hA''
      rw [eS']
      exact hcyc.orb hA'.1 hA''.1 ((hB.edge h hA'.1 h' hA''.1).1 (by rw [hA'.2, hA''.2]))
  obtain ⟨hf1, hf2⟩ := iff_of_key hkeyF
  obtain ⟨he1, he2⟩ := iff_of_key hkeyE
  have hedge : ∀ i j, m.heL i → m.heL j → (m.heEdge i = m.heEdge j ↔ samePair (m.heVertex i) (m.tip i) (m.heVertex j) (m.tip j)) := by
    intro i j hi hj
    rw [eE', hB.edge i ((hL i).1 hi) j ((hL j).1 hj), hkf]
  have horient : ∀ i, m.heL i → (m.heOrient i = true ↔
      m.heVertex i = m.heVertex (m.eHalfedge (m.heEdge i)) ∧ m.tip i = m.tip (m.eHalfedge (m.heEdge i))) := by
    intro i hi
    have hi' := (hL i).1 hi
    have h1 := hB.ehe _ (hB.edge_lt i hi')
    have h2 := (hkf i (s.m.eHalfedge (s.m.heEdge i))).1 ((hB.edge i hi' _ h1.1).1 h1.2.symm)
    rw [eO', hB.orient i hi', eE', eH', ← eV', beq_iff_eq]
    rcases h2 with ⟨a, b⟩ | ⟨a, b⟩
    · exact ⟨fun _ => ⟨a, b⟩, fun x => x.1⟩
    · exact ⟨fun x => ⟨x, by rw [b, ← x, a]⟩, fun x => x.1⟩
  have hvalid : m.Valid := by
    have hcapH : m0.nHeCap ≤ 2 * T := hst.cap
    refine ⟨?_, ?_, ?_, ?_, hf1, he1, ?_, ?_, ?_, hf2, he2, ?_, ?_, ?_, ?_, ?_, ?_, ?_, ?_, ?_, ?_⟩
    · rw [cHe'.2.2.1, cHe'.2.2.2]; exact ⟨hst.le, by omega⟩
    · rw [cV'.2.1, cV'.2.2]; exact ⟨le_rfl, by omega⟩
    · rw [cE'.2.1, cE'.2.2]; obtain ⟨-, a, b, c⟩ := hB.cnt; exact ⟨b, by omega⟩
    · rw [cF'.2.1, cF'.2.2]; exact ⟨le_rfl, by omega⟩
    · intro i hi; rw [hvL, eV']; exact hvert i ((hL i).1 hi)
    · intro i hi; rw [hfL, eF']; exact hfl i ((hL i).1 hi)
    · intro i hi; rw [heL', eE']; exact hB.edge_lt i ((hL i).1 hi)
    · intro v hv; rw [hL, evh', eV']; exact hvI v ((hvL v).1 hv)
    · intro f hf; rw [hL, efh', eF']; exact hfh f ((hfL f).1 hf)
    · intro e he; rw [hL, eH', eE']; exact hB.ehe e ((heL' e).1 he)
    · intro i j hi hj e
      have oi := horient i hi
      have oj := horient j hj
      have hp := (hedge i j hi hj).1 e
      have hi' := (hL i).1 hi
      have hj' := (hL j).1 hj
      have h1 := hB.ehe _ (hB.edge_lt i hi')
      have h2 := (hkf i (s.m.eHalfedge (s.m.heEdge i))).1 ((hB.edge i hi' _ h1.1).1 h1.2.symm)
      rw [← e] at oj
      rw [← eE', ← eH'] at h2
      generalize m.eHalfedge (m.heEdge i) = g at *
      unfold aligned
      unfold samePair at hp h2
      clear * - oi oj hp h2
      rcases hoi : m.heOrient i with _ | _ <;> rcases hoj : m.heOrient j with _ | _ <;>
        simp only [hoi, hoj, true_iff, Bool.false_eq_true, false_iff, not_and, reduceCtorEq, if_true, if_false] at oi oj ⊢ <;>
        omega
    · rw [hrin]
      have := Ring.C25_init m1.rin (dead := fun h => m1.heNext h == INV) (vdead := fun v => m1.vHalfedge v == INV)
        (key := m1.tip) (nHe := m1.nHeFill) (nV := m1.nVFill) (by rw [cHe.2.2.1]; omega) (by
          intro h hh _
          rw [cHe.2.2.1] at hh
          rw [cV.2.1, htip1, evh]
          simp only
          have := hvert _ (hnl h hh)
          refine ⟨this, ?_⟩
          have := (hvI _ this).1
          rw [beq_eq_false_iff_ne]; omega) (by
          intro v hv _
          rw [cV.2.1] at hv
          obtain ⟨a, b⟩ := hvI v hv
          -- the halfedge before it in its face
          obtain ⟨q, hq, hq2⟩ := hkeyF.pred (i := m0.vHalfedge v) (v := m.heFace (m0.vHalfedge v)) (by
            rw [if_pos ((hL _).2 a)])
          have hqL : m.heL q := by
            by_contra hc
            rw [if_neg hc] at hq; cases hq
          refine ⟨q, by rw [cHe.2.2.1]; exact (hL q).1 hqL, ?_, ?_⟩
          · rw [beq_eq_false_iff_ne, eN]; exact hnI q ((hL q).1 hqL)
          · rw [htip1]; simp only; rw [← eN', hq2, b])
      have e1 : (fun h => if h < m1.nHeFill ∧ (m1.heNext h == INV) = false then some (m1.tip h) else none) =
          fun h => if m.heL h then some (m.tip h) else none := by
        funext h
        have : (h < m1.nHeFill ∧ (m1.heNext h == INV) = false) ↔ m.heL h := by
          rw [hL, cHe.2.2.1, eN, beq_eq_false_iff_ne]
          exact ⟨fun x => x.1, fun x => ⟨x, hnI h x⟩⟩
        by_cases x : m.heL h
        · rw [if_pos x, if_pos (this.2 x), htip, htip1]
        · rw [if_neg x, if_neg (fun y => x (this.1 y))]
      have e2 : (fun v => v < m1.nVFill ∧ (m1.vHalfedge v == INV) = false) = m.vL := by
        funext v
        apply propext
        unfold vL
        rw [cV.2.1, cV'.2.1, evh, evh', beq_eq_false_iff_ne]
      exact this.cast e1 e2
    · rw [hrout]
      have := Ring.C25_init m1.rout (dead := fun h => m1.heNext h == INV) (vdead := fun v => m1.vHalfedge v == INV)
        (key := m1.heVertex) (nHe := m1.nHeFill) (nV := m1.nVFill) (by rw [cHe.2.2.1]; omega) (by
          intro h hh _
          rw [cHe.2.2.1] at hh
          rw [cV.2.1, eV, evh]
          have := hvert _ hh
          refine ⟨this, ?_⟩
          have := (hvI _ this).1
          rw [beq_eq_false_iff_ne]; omega) (by
          intro v hv _
          rw [cV.2.1] at hv
          obtain ⟨a, b⟩ := hvI v hv
          refine ⟨_, by rw [cHe.2.2.1]; exact a, ?_, by rw [eV]; exact b⟩
          rw [beq_eq_false_iff_ne, eN]; exact hnI _ a)
      have e1 : (fun h => if h < m1.nHeFill ∧ (m1.heNext h == INV) = false then some (m1.heVertex h) else none) =
          fun h => if m.heL h then some (m.heVertex h) else none := by
        funext h
        have : (h < m1.nHeFill ∧ (m1.heNext h == INV) = false) ↔ m.heL h := by
          rw [hL, cHe.2.2.1, eN, beq_eq_false_iff_ne]
          exact ⟨fun x => x.1, fun x => ⟨x, hnI h x⟩⟩
        by_cases x : m.heL h
        · rw [if_pos x, if_pos (this.2 x), eV, eV']
        · rw [if_neg x, if_neg (fun y => x (this.1 y))]
      have e2 : (fun v => v < m1.nVFill ∧ (m1.vHalfedge v == INV) = false) = m.vL := by
        funext v
        apply propext
        unfold vL
        rw [cV.2.1, cV'.2.1, evh, evh', beq_eq_false_iff_ne]
      exact this.cast e1 e2
    · rw [cHe'.1, cHe'.2.2.1, eN']; exact (count_all hnI).symm
    · rw [cE'.1, cE'.2.1]
      exact (count_all (fun e he => ((heL' e).2 he).2)).symm
    · rw [cV'.1, cV'.2.1]
      exact (count_all (fun e he => ((hvL e).2 he).2)).symm
    · rw [cF'.1, cF'.2.1]
      exact (count_all (fun e he => ((hfL e).2 he).2)).symm
  refine ⟨hvalid, ?_, ⟨cF'.1, cF'.2.1⟩, ?_, hfL, by rw [hT]; exact hL, by rw [cE'.1, cE'.2.1, cHe'.1]; exact ⟨rfl, hB.cnt.2.1⟩, ?_, hedge, ?_, ?_, ?_, horient⟩
  · rw [hT]; exact ⟨cHe'.1, cHe'.2.1, cHe'.2.2.1⟩
  · intro v; rw [hvL, hVmem]
  · intro f hf
    have hb := hblk f hf
    have hp := hpos f hf
    have hlist : m.faceHalfedges f = .ok ((List.range polys[f].length).map (fun j => m0.fHalfedge f + j)) := by
      unfold faceHalfedges
      rw [eN', efh', cHe'.2.2.1]
      obtain ⟨k, hk1, hk2, hk3, hk4⟩ := Mesh.orbitList_ok (f := m0.heNext) (x := m0.fHalfedge f) (N := T)
        ⟨polys[f].length - 1, by
          rw [← Function.iterate_succ_apply, hit f hf, show (polys[f].length - 1).succ = polys[f].length by omega, Nat.mod_self]; simp⟩
        (fun z hz => by
          obtain ⟨j, rfl⟩ := hz
          rw [hit f hf]
          have := Nat.mod_lt j hp
          omega)
      rw [hit f hf] at hk2
      have hd : polys[f].length ∣ k + 1 := Nat.dvd_of_mod_eq_zero (by omega)
      have hle := Nat.le_of_dvd (by omega) hd
      have hk : k + 1 = polys[f].length := by
        by_contra hc
        refine hk3 (polys[f].length - 1) (by omega) ?_
        rw [hit f hf, show polys[f].length - 1 + 1 = polys[f].length by omega, Nat.mod_self, Nat.add_zero]
      rw [hk4, hk]
      congr 1
      apply List.map_congr_left
      intro j hj
      rw [hit f hf, Nat.mod_eq_of_lt (List.mem_range.1 hj)]
    refine ⟨_, hlist, ?_⟩
    rw [List.map_map]
    apply List.ext_getElem
    · simp
    · intro i h1 h2
      simp only [List.getElem_map, List.getElem_range, Function.comp]
      rw [eV']; exact (hb.2 i h2).2.1
  · intro i hi
    obtain ⟨l, a, b, c, -⟩ := hkeyE.iter (h := i) (v := m.heEdge i) (N := m.nHeFill) (by rw [if_pos hi]) (by
      intro z hz
      by_contra hc
      rw [if_neg (fun x => hc x.1)] at hz
      exact hz rfl)
    refine ⟨l, a, b, fun j => ?_⟩
    rw [c j]
    by_cases hj : m.heL j
    · rw [if_pos hj, Option.some.injEq, hedge j i hj hi]; simp [hj]
    · rw [if_neg hj]; simp [hj]
  · intro sd hsd'
    obtain ⟨h, hh, e⟩ := List.getElem_of_mem hsd'
    rw [hlen] at hh
    have e' := hsd h hh
    rw [List.getElem?_eq_getElem (by rw [hlen]; exact hh), e, Option.some.injEq] at e'
    have hpair : ∀ g, m.heL g → (samePair (m.heVertex g) (m.tip g) sd.1 sd.2 ↔ m.heEdge g = m.heEdge h) := by
      intro g hg
      rw [hedge g h hg ((hL h).2 hh), e', eV', htip]
    refine ⟨m.heEdge h, ⟨hvalid.edge_live h ((hL h).2 hh), ?_⟩, ?_⟩
    · have := hvalid.e_he _ (hvalid.edge_live h ((hL h).2 hh))
      exact (hpair _ this.1).2 this.2
    · intro e'' ⟨h1, h2⟩
      have := hvalid.e_he _ h1
      rw [← this.2]
      exact (hpair _ this.1).1 h2
  · intro e he
    have h1 := hvalid.e_he e he
    have h2 := (hL _).1 h1.1
    refine ⟨_, List.mem_of_getElem? (hsd _ h2), ?_⟩
    rw [eV', htip]
    exact .inl ⟨rfl, rfl⟩

theorem Built.small {polys : List (List ℕ)} {m : GMesh} (hb : Built polys m) (h3 : ∀ p ∈ polys, 3 ≤ p.length)
    (hsize : 4 * polys.flatten.length < INV) : ¬ m.nearLimit m.nHeFill := by
  have h1 := length_le_flatten polys h3
  have h2 := hb.he
  have h4 := hb.e
  have h5 := hb.f
  unfold nearLimit
  omega

/-- A polygon with fewer than three corners is rejected. -/
theorem C24_short (polys : List (List ℕ)) (order : List (ℕ × ℕ)) (h : ∃ p ∈ polys, p.length < 3) :
    fromPolygons polys order = .error .throw := by
  unfold fromPolygons
  rw [if_pos (by
    obtain ⟨p, hp, hl⟩ := h
    simp only [List.any_eq_true, decide_eq_true_eq]
    exact ⟨p, hp, hl⟩)]

/-- A vertex index that is left out is rejected. -/
theorem C24_unused (polys : List (List ℕ)) (order : List (ℕ × ℕ)) (h3 : ∀ p ∈ polys, 3 ≤ p.length)
    (hsize : 2 * (polys.flatten.length + 1) < INV) (hv : ∀ v ∈ polys.flatten, v + 1 < INV)
    (hun : ∃ v ∈ polys.flatten, ∃ w ≤ v, w ∉ polys.flatten) :
    fromPolygons polys order = .error .throw := by
  obtain ⟨v, hvm, w, hw, hwn⟩ := hun
  unfold fromPolygons
  rw [if_neg (by
    simp only [List.any_eq_true, decide_eq_true_eq, not_exists, not_and]
    intro p hp; have := h3 p hp; omega)]
  have h1 := (foldl_max_le polys.flatten 0).2 v hvm
  have h2 : polys.flatten.foldl max 0 + 1 < INV := by
    have hI : 2 < INV := by decide
    rcases foldl_max_mem polys.flatten 0 with e | e
    · omega
    · exact hv _ e
  have hFle := length_le_flatten polys h3
  simp only
  rw [if_neg (show ¬ (INV ≤ polys.flatten.foldl max 0 + 1 ∨ INV ≤ polys.length) by omega)]
  obtain ⟨m0, e0, -⟩ := facesLoop_ok h3 (polys.flatten.foldl max 0 + 1) hsize
  rw [e0]
  simp only [bind, Except.bind]
  rw [if_pos (by
    simp only [List.any_eq_true, List.mem_range, Bool.not_eq_true']
    refine ⟨w, by omega, ?_⟩
    rw [← Bool.not_eq_true, List.contains_iff_mem]
    exact hwn)]

/-- Three triangles around one edge: a non-manifold edge. -/
def book : List (List ℕ) := [[0, 1, 2], [1, 0, 3], [0, 1, 4]]

/-- The keys of `book`, in some order. -/
def bookOrder : List (ℕ × ℕ) := [(0, 2), (0, 1), (1, 2), (0, 3), (1, 3), (1, 4), (0, 4)]

theorem book_built : ∃ m, fromPolygons book bookOrder = .ok m ∧ Built book m :=
  C24 book bookOrder (by decide) (by decide) (by decide) (by decide) (by decide) (by decide)

example : fromPolygons [[0, 1, 3]] [] = .error .throw :=
  C24_unused _ _ (by decide) (by decide) (by decide) (by decide)

end GC.GMesh
