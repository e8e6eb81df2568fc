import Verif.Props.BuildEdges

/-!
# C28: separating non-manifold edges
-/

namespace GC.GMesh

/-- What `separateToNewEdge` does: `heA`, `heB` become the two halfedges of `e'`, everything else stays
on its edge, and faces and vertices are untouched. -/
structure Separated (m m' : GMesh) (a b e' : ℕ) : Prop where
  new : ¬ m.eL e' ∧ m'.eL e' ∧ m'.eHalfedge e' = a
  edge : ∀ h, m'.heEdge h = if h = a ∨ h = b then e' else m.heEdge h
  sib : m'.heSibling a = b ∧ m'.heSibling b = a
  elive : ∀ e, m.eL e → m'.eL e
  eonly : ∀ e, m'.eL e → m.eL e ∨ e = e'
  next : m'.heNext = m.heNext
  vertex : m'.heVertex = m.heVertex
  face : m'.heFace = m.heFace
  orient : m'.heOrient = m.heOrient
  vHe : m'.vHalfedge = m.vHalfedge
  fHe : m'.fHalfedge = m.fHalfedge
  fill : m'.nHeFill = m.nHeFill
  nEFill : m'.nEFill = m.nEFill + 1
  counts : m'.nE = m.nE + 1 ∧ m'.nHe = m.nHe ∧ m'.nInt = m.nInt ∧ m'.nV = m.nV ∧ m'.nF = m.nF

theorem removeFromSiblingList_ok {m : GMesh} {A : ℕ → Option ℕ} (hk : KeyOrb m.heSibling A) (hN : ∀ z, A z ≠ none → z < m.nHeFill)
    {x y v : ℕ} (hx : A x = some v) (hy : A y = some v) (hxy : x ≠ y) :
    ∃ s, m.removeFromSiblingList x = .ok { m with heSibling := s } ∧ KeyOrb s (Function.update A x none) := by
  obtain ⟨q, q1, q2, q3⟩ := walkPrev_ok hk hx hN (hk.mem x v hx)
  have hqx : q ≠ x := by
    intro e
    subst e
    exact hxy (((hk.orb q y v hx hy).eq_of_fix q3).symm)
  unfold removeFromSiblingList
  simp only [bind, Except.bind, q1]
  exact ⟨_, rfl, hk.remove hx q2 q3 hqx⟩

theorem sep_core {m : GMesh} (hv : m.Valid) {a b : ℕ} (ha : m.heL a) (hb : m.heL b) (hab : a ≠ b)
    (he : m.heEdge a = m.heEdge b) {l : List ℕ} (hl : m.edgeHalfedges (m.heEdge a) = .ok l) (h3 : 2 < l.length)
    (hlim : 2 * m.nEFill < INV) :
    ∃ m' e', m.separateToNewEdge a b = .ok (m', e') ∧ Separated m m' a b e' ∧ m'.Valid := by
  have hel := hv.edge_live a ha
  obtain ⟨l0, hl0, hnd, hmem, -⟩ := hv.edgeHalfedges_ok hel
  rw [hl] at hl0
  cases hl0
  have hcap := hv.e_cap
  have hpos := hel.1
  unfold separateToNewEdge
  rw [if_neg (by simpa using he), if_neg hab]
  simp only [bind, Except.bind, hl]
  rw [if_neg (by omega)]
  generalize hc : (if m.nEFill < m.nECap then m.nECap else max (m.nECap * 2) 1) = c
  have hc' : m.nEFill + 1 ≤ c ∧ c < INV := by split_ifs at hc <;> omega
  have hnew : m.getNewEdge = .ok ({ m with nECap := c, nEFill := m.nEFill + 1, nE := m.nE + 1 }, m.nEFill) := by
    unfold getNewEdge
    simp only [hc]
    rw [if_neg (by omega), if_neg (by omega)]
  rw [hnew]
  simp only
  generalize hm1 : ({ m with nECap := c, nEFill := m.nEFill + 1, nE := m.nE + 1 } : GMesh) = m1
  have hl1 : m1.edgeHalfedges (m.heEdge a) = .ok l := by rw [← hl, ← hm1]; rfl
  rw [hl1]
  simp only
  -- another halfedge on the edge
  have hex : ∃ z ∈ l, z ≠ a ∧ z ≠ b := by
    by_contra hc
    push Not at hc
    have hsub : l ⊆ [a, b] := fun z hz => by
      by_cases e : z = a
      · simp [e]
      · simp [hc z hz e]
    have := (List.subperm_of_subset hnd hsub).length_le
    simp at this
    omega
  obtain ⟨c0, hc0⟩ : ∃ z, l.find? (fun he => decide (he ≠ a ∧ he ≠ b)) = some z := by
    obtain ⟨z, hz, h1, h2⟩ := hex
    rw [← Option.isSome_iff_exists, List.find?_isSome]
    exact ⟨z, hz, by simp [h1, h2]⟩
  have hc1 := List.mem_of_find?_eq_some hc0
  have hc2 := List.find?_some hc0
  simp only [decide_eq_true_eq] at hc2
  obtain ⟨hcl, hce⟩ := (hmem c0).1 hc1
  rw [hc0]
  simp only
  -- the two removals
  have hkey : KeyOrb m.heSibling m.eKey := hv.edges
  have kA : m.eKey a = some (m.heEdge a) := eKey_some.2 ⟨ha, rfl⟩
  have kB : m.eKey b = some (m.heEdge a) := eKey_some.2 ⟨hb, he.symm⟩
  have kC : m.eKey c0 = some (m.heEdge a) := eKey_some.2 ⟨hcl, hce⟩
  subst hm1
  generalize hm2 : ({ m with eHalfedge := upd m.eHalfedge (m.heEdge a) c0, nECap := c, nEFill := m.nEFill + 1,
                             nE := m.nE + 1 } : GMesh) = m2
  have hs2 : m2.heSibling = m.heSibling := by rw [← hm2]
  have hf2 : m2.nHeFill = m.nHeFill := by rw [← hm2]
  obtain ⟨s1, r1, k1⟩ := removeFromSiblingList_ok (m := m2) (A := m.eKey) (by rw [hs2]; exact hkey)
    (fun z hz => by rw [hf2]; exact (eKey_ne.1 hz).1) kA kB hab
  rw [r1]
  simp only
  have hkB' : Function.update m.eKey a none b = some (m.heEdge a) := by rw [Function.update_of_ne hab.symm]; exact kB
  have hkC' : Function.update m.eKey a none c0 = some (m.heEdge a) := by rw [Function.update_of_ne hc2.1]; exact kC
  obtain ⟨s2, r2, k2⟩ := removeFromSiblingList_ok (m := { m2 with heSibling := s1 }) (A := Function.update m.eKey a none) k1
    (fun z hz => by
      show z < m2.nHeFill
      rw [hf2]
      by_cases e : z = a
      · rw [e]; exact ha.1
      · rw [Function.update_of_ne e] at hz; exact (eKey_ne.1 hz).1) hkB' hkC' hc2.2.symm
  rw [r2]
  simp only
  generalize hm3 : ({ m2 with
    eHalfedge := upd m2.eHalfedge m.nEFill a
    heEdge := upd (upd m2.heEdge a m.nEFill) b m.nEFill
    heSibling := upd (upd s2 a b) b a } : GMesh) = m3
  have heq : m3 = { m with
      eHalfedge := upd (upd m.eHalfedge (m.heEdge a) c0) m.nEFill a
      heEdge := upd (upd m.heEdge a m.nEFill) b m.nEFill
      heSibling := upd (upd s2 a b) b a
      nECap := c, nEFill := m.nEFill + 1, nE := m.nE + 1 } := by rw [← hm3, ← hm2]
  refine ⟨m3, m.nEFill, ?_, ?_⟩
  · rw [← hm3]
  clear hm3 r1 r2 hl1
  have hE : ∀ h, m3.heEdge h = if h = a ∨ h = b then m.nEFill else m.heEdge h := by
    intro h
    rw [heq]
    simp only
    by_cases h1 : h = b
    · subst h1; simp
    · rw [upd_ne _ _ h1]
      by_cases h2 : h = a
      · subst h2; simp
      · rw [upd_ne _ _ h2]; simp [h1, h2]
  have hS : m3.heSibling = upd (upd s2 a b) b a := by rw [heq]
  have hL : ∀ h, m3.heL h ↔ m.heL h := fun h => by rw [heq]; exact Iff.rfl
  have heH : ∀ e, m3.eHalfedge e = if e = m.nEFill then a else if e = m.heEdge a then c0 else m.eHalfedge e := by
    intro e
    rw [heq]
    simp only
    by_cases h1 : e = m.nEFill
    · subst h1; simp
    · rw [upd_ne _ _ h1, if_neg h1]
      by_cases h2 : e = m.heEdge a
      · subst h2; simp
      · rw [upd_ne _ _ h2, if_neg h2]
  have hne : ∀ h, m.heL h → m.heEdge h ≠ m.nEFill := fun h hh => (hv.edge_live h hh).1.ne
  have heL : ∀ e, m3.eL e ↔ m.eL e ∨ e = m.nEFill := by
    intro e
    unfold eL
    rw [heH]
    have hfill : m3.nEFill = m.nEFill + 1 := by rw [heq]
    rw [hfill]
    have := hv.he_lt ha
    have := hv.he_lt hcl
    by_cases h1 : e = m.nEFill
    · rw [if_pos h1]; subst h1; simp; omega
    · rw [if_neg h1]
      by_cases h2 : e = m.heEdge a
      · rw [if_pos h2]; subst h2
        exact ⟨fun _ => .inl hel, fun _ => ⟨by omega, by omega⟩⟩
      · rw [if_neg h2]
        constructor
        · intro x; exact .inl ⟨by omega, x.2⟩
        · rintro (x | x)
          · exact ⟨by omega, x.2⟩
          · exact absurd x h1
  have hkey3 : KeyOrb m3.heSibling (fun h => if m3.heL h then some (m3.heEdge h) else none) := by
    have hs : ∀ h v, (if m3.heL h then some (m3.heEdge h) else none) = some v ↔
        ((h = a ∨ h = b) ∧ v = m.nEFill) ∨ (h ≠ a ∧ h ≠ b ∧ m.heL h ∧ m.heEdge h = v) := by
      intro h v
      rw [hE]
      by_cases h1 : h = a ∨ h = b
      · have : m3.heL h := by
          rw [hL]
          rcases h1 with x | x
          · rw [x]; exact ha
          · rw [x]; exact hb
        rw [if_pos this, if_pos h1, Option.some.injEq]
        constructor
        · intro x; exact .inl ⟨h1, x.symm⟩
        · rintro (x | x)
          · exact x.2.symm
          · exact absurd h1 (by simp [x.1, x.2.1])
      · rw [if_neg h1]
        push Not at h1
        by_cases h2 : m3.heL h
        · rw [if_pos h2, Option.some.injEq]
          have := (hL h).1 h2
          simp [h1, this]
        · rw [if_neg h2]
          have : ¬ m.heL h := fun x => h2 ((hL h).2 x)
          simp [h1, this]
    have k2s : ∀ h v, Function.update (Function.update m.eKey a none) b none h = some v ↔
        h ≠ a ∧ h ≠ b ∧ m.heL h ∧ m.heEdge h = v := by
      intro h v
      by_cases h1 : h = b
      · subst h1; simp
      · rw [Function.update_of_ne h1]
        by_cases h2 : h = a
        · subst h2; simp
        · rw [Function.update_of_ne h2, eKey_some]; simp [h1, h2]
    have hout : ∀ h, h ≠ a → h ≠ b → m3.heSibling h = s2 h := fun h h1 h2 => by
      rw [hS, upd_ne _ _ h2, upd_ne _ _ h1]
    have hsa : m3.heSibling a = b := by rw [hS, upd_ne _ _ hab, upd_same]
    have hsb : m3.heSibling b = a := by rw [hS, upd_same]
    refine ⟨fun h v hA => ?_, fun h h' v hA hA' => ?_⟩
    · rw [hs] at hA ⊢
      rcases hA with ⟨x | x, y⟩ | x
      · subst x; rw [hsa]; exact .inl ⟨.inr rfl, y⟩
      · subst x; rw [hsb]; exact .inl ⟨.inl rfl, y⟩
      · rw [hout h x.1 x.2.1]
        exact .inr ((k2s _ _).1 (k2.mem h v ((k2s _ _).2 x)))
    · rw [hs] at hA hA'
      have hcl : Orb m3.heSibling a b := by
        have := Orb.step m3.heSibling a
        rwa [hsa] at this
      have hcl' : Orb m3.heSibling b a := by
        have := Orb.step m3.heSibling b
        rwa [hsb] at this
      rcases hA with ⟨x, y⟩ | x <;> rcases hA' with ⟨x', y'⟩ | x'
      · rcases x with rfl | rfl <;> rcases x' with rfl | rfl
        · exact Orb.refl _ _
        · exact hcl
        · exact hcl'
        · exact Orb.refl _ _
      · exact absurd (x'.2.2.2.trans y) (hne _ x'.2.2.1)
      · exact absurd (x.2.2.2.trans y') (hne _ x.2.2.1)
      · exact (Orb.congr (fun z => Function.update (Function.update m.eKey a none) b none z = some v) ((k2s _ _).2 x)
          (fun z hz => k2.mem z v hz) (fun z hz => by
            have := (k2s _ _).1 hz
            rw [hout z this.1 this.2.1])).1 (k2.orb h h' v ((k2s _ _).2 x) ((k2s _ _).2 x'))
  obtain ⟨hk1, hk2⟩ := iff_of_key hkey3
  refine ⟨⟨⟨fun x => by have := x.1; omega, (heL _).2 (.inr rfl), by rw [heH, if_pos rfl]⟩, hE,
    ⟨by rw [hS, upd_ne _ _ hab, upd_same], by rw [hS, upd_same]⟩, fun e x => (heL e).2 (.inl x), fun e x => (heL e).1 x,
    ?_, ?_, ?_, ?_, ?_, ?_, ?_, ?_, ?_⟩, ?_⟩
  · rw [heq]
  · rw [heq]
  · rw [heq]
  · rw [heq]
  · rw [heq]
  · rw [heq]
  · rw [heq]
  · rw [heq]
  · rw [heq]; simp
  have hsame : ∀ i j, m.heL i → m.heL j → m3.heEdge i = m3.heEdge j → m.heEdge i = m.heEdge j := by
    intro i j hi hj x
    rw [hE, hE] at x
    split_ifs at x with h1 h2 h2
    · rcases h1 with rfl | rfl <;> rcases h2 with rfl | rfl <;> first | rfl | exact he | exact he.symm
    · exact absurd x.symm (hne j hj)
    · exact absurd x (hne i hi)
    · exact x
  refine ⟨?_, ?_, ?_, ?_, ?_, hk1, ?_, ?_, ?_, ?_, hk2, ?_, ?_, ?_, ?_, ?_, ?_, ?_, ?_, ?_, ?_⟩
  · rw [heq]; exact hv.he_cap
  · rw [heq]; exact hv.v_cap
  · rw [heq]; exact hc'
  · rw [heq]; exact hv.f_cap
  · rw [heq]; exact hv.next_live
  · rw [heq]; exact hv.vertex_live
  · rw [heq]; exact hv.face_live
  · intro i hi
    rw [heL, hE]
    split_ifs with h1
    · exact .inr rfl
    · exact .inl (hv.edge_live i ((hL i).1 hi))
  · rw [heq]; exact hv.face_iff
  · rw [heq]; exact hv.v_he
  · rw [heq]; exact hv.f_he
  · intro e hx
    rw [hL, hE, heH]
    by_cases h1 : e = m.nEFill
    · rw [if_pos h1, if_pos (.inl rfl)]; exact ⟨ha, h1.symm⟩
    · rw [if_neg h1]
      have hx' := ((heL e).1 hx).resolve_right h1
      by_cases h2 : e = m.heEdge a
      · rw [if_pos h2, if_neg (by simp [hc2])]; exact ⟨hcl, hce.trans h2.symm⟩
      · rw [if_neg h2]
        obtain ⟨x, y⟩ := hv.e_he e hx'
        refine ⟨x, ?_⟩
        rw [if_neg]
        · exact y
        · rintro (z | z)
          · exact h2 (by rw [← z, y])
          · exact h2 (by rw [he, ← z, y])
  · intro i j hi hj x
    have := hv.orient i j ((hL i).1 hi) ((hL j).1 hj) (hsame i j ((hL i).1 hi) ((hL j).1 hj) x)
    rw [heq]
    exact this
  · rw [heq]; exact hv.in_ring
  · rw [heq]; exact hv.out_ring
  · rw [heq]; exact hv.cnt_he
  · have h1 : m3.nEFill = m.nEFill + 1 := by rw [heq]
    have h2 : m3.nE = m.nE + 1 := by rw [heq]
    have := hv.he_lt ha
    have := hv.he_lt hcl
    rw [h1, h2, Nat.count_succ, hv.cnt_e, heH, if_pos rfl, if_pos (by omega)]
    congr 1
    refine GC.count_congr (fun i hi => ?_)
    rw [heH, if_neg (by omega)]
    by_cases h3 : i = m.heEdge a
    · rw [if_pos h3, h3]
      exact ⟨fun _ => by omega, fun _ => hel.2⟩
    · rw [if_neg h3]
  · rw [heq]; exact hv.cnt_v
  · rw [heq]; exact hv.cnt_f

/-- **C28, one edge.**  `separateToNewEdge(a, b)` moves exactly `a` and `b` to a new edge and leaves the others. -/
theorem C28_separate {m : GMesh} (hv : m.Valid) {a b : ℕ} (ha : m.heL a) (hb : m.heL b) (hab : a ≠ b)
    (he : m.heEdge a = m.heEdge b) {l : List ℕ} (hl : m.edgeHalfedges (m.heEdge a) = .ok l) (h3 : 2 < l.length)
    (hlim : 2 * m.nEFill < INV) :
    ∃ m' e', m.separateToNewEdge a b = .ok (m', e') ∧ Separated m m' a b e' ∧ m'.Valid :=
  sep_core hv ha hb hab he hl h3 hlim

/-- With at most two halfedges on the edge nothing is done. -/
theorem C28_noop {m : GMesh} {a b : ℕ} (hab : a ≠ b) (he : m.heEdge a = m.heEdge b) {l : List ℕ}
    (hl : m.edgeHalfedges (m.heEdge a) = .ok l) (h2 : l.length ≤ 2) :
    m.separateToNewEdge a b = .ok (m, m.heEdge a) := by
  unfold separateToNewEdge
  rw [if_neg (by simpa using he), if_neg hab]
  simp only [bind, Except.bind, hl]
  rw [if_pos h2]

/-- At most two halfedges lie on `e`. -/
def Thin (m : GMesh) (e : ℕ) : Prop :=
  ∀ h1 h2 h3, m.heL h1 → m.heL h2 → m.heL h3 → m.heEdge h1 = e → m.heEdge h2 = e → m.heEdge h3 = e →
    h1 = h2 ∨ h1 = h3 ∨ h2 = h3

theorem thin_of_manifold {m : GMesh} (hv : m.Valid) {e : ℕ} (he : m.eL e) (hm : m.isManifold e = true) : m.Thin e := by
  obtain ⟨a, b⟩ := hv.e_he e he
  have key : ∀ h, m.heL h → m.heEdge h = e → h = m.eHalfedge e ∨ h = m.heSibling (m.eHalfedge e) := by
    intro h hh hE
    have ho := (hv.edge_iff _ h a hh).1 (b.trans hE.symm)
    refine ho.mem (fun z => z = m.eHalfedge e ∨ z = m.heSibling (m.eHalfedge e)) (.inl rfl) ?_
    rintro z (rfl | rfl)
    · exact .inr rfl
    · unfold isManifold at hm
      simp only [Bool.or_eq_true, beq_iff_eq] at hm
      rcases hm with x | x
      · exact .inl x
      · rw [x]; exact .inl x
  intro h1 h2 h3 l1 l2 l3 e1 e2 e3
  rcases key h1 l1 e1 with x | x <;> rcases key h2 l2 e2 with y | y <;> rcases key h3 l3 e3 with z | z <;>
    simp [x, y, z]

theorem thin_length {m : GMesh} (hv : m.Valid) {e : ℕ} (he : m.eL e) (ht : m.Thin e) :
    ∃ l, m.edgeHalfedges e = .ok l ∧ l.length ≤ 2 := by
  obtain ⟨l, hl, hnd, hmem, -⟩ := hv.edgeHalfedges_ok he
  refine ⟨l, hl, ?_⟩
  match l, hnd, hmem with
  | [], _, _ => simp
  | [_], _, _ => simp
  | [_, _], _, _ => simp
  | a :: b :: c :: l, hnd, hmem =>
    exfalso
    have ha := (hmem a).1 (by simp)
    have hb := (hmem b).1 (by simp)
    have hc := (hmem c).1 (by simp)
    simp at hnd
    rcases ht a b c ha.1 hb.1 hc.1 ha.2 hb.2 hc.2 with x | x | x
    · exact hnd.1.1 x
    · exact hnd.1.2.1 x
    · exact hnd.2.1.1 x

/-- Each live edge has its own halfedge. -/
theorem Valid.nE_le {m : GMesh} (hv : m.Valid) : m.nE ≤ m.nHeFill := by
  rw [hv.cnt_e, Nat.count_eq_card_filter_range]
  have := Finset.card_le_card_of_injOn (s := (Finset.range m.nEFill).filter (fun e => m.eHalfedge e ≠ INV))
    (t := Finset.range m.nHeFill) m.eHalfedge (fun e he => by
      simp only [Finset.coe_filter, Finset.mem_range, Set.mem_setOf_eq] at he
      simp only [Finset.coe_range, Set.mem_Iio]
      exact (hv.e_he e he).1.1) (fun e he e' he' x => by
      simp only [Finset.coe_filter, Finset.mem_range, Set.mem_setOf_eq] at he he'
      have x : m.eHalfedge e = m.eHalfedge e' := x
      rw [← (hv.e_he e he).2, ← (hv.e_he e' he').2, x])
  simpa using this

/-- Everything but the edges is the same. -/
structure SameFaces (m m' : GMesh) : Prop where
  next : m'.heNext = m.heNext
  vertex : m'.heVertex = m.heVertex
  face : m'.heFace = m.heFace
  orient : m'.heOrient = m.heOrient
  vHe : m'.vHalfedge = m.vHalfedge
  fHe : m'.fHalfedge = m.fHalfedge
  fill : m'.nHeFill = m.nHeFill
  counts : m'.nHe = m.nHe ∧ m'.nInt = m.nInt ∧ m'.nV = m.nV ∧ m'.nF = m.nF
  /-- the number of edge slots grows like the number of edges -/
  grow : m'.nEFill + m.nE = m.nEFill + m'.nE
  /-- the old edges are still there, and halfedges on different edges stay on different edges -/
  elive : ∀ e, m.eL e → m'.eL e
  apart : ∀ h h', m.heL h → m.heL h' → m'.heEdge h = m'.heEdge h' → m.heEdge h = m.heEdge h'

theorem SameFaces.refl (m : GMesh) : SameFaces m m :=
  ⟨rfl, rfl, rfl, rfl, rfl, rfl, rfl, ⟨rfl, rfl, rfl, rfl⟩, rfl, fun _ h => h, fun _ _ _ _ h => h⟩

theorem SameFaces.heL {m m' : GMesh} (h : SameFaces m m') (i : ℕ) : m'.heL i ↔ m.heL i := by
  unfold GMesh.heL; rw [h.next, h.fill]

theorem SameFaces.trans {a b c : GMesh} (h : SameFaces a b) (h' : SameFaces b c) : SameFaces a c := by
  refine ⟨h'.next.trans h.next, h'.vertex.trans h.vertex, h'.face.trans h.face, h'.orient.trans h.orient,
    h'.vHe.trans h.vHe, h'.fHe.trans h.fHe, h'.fill.trans h.fill, ?_, ?_, fun e x => h'.elive e (h.elive e x),
    fun i j hi hj x => h.apart i j hi hj (h'.apart i j ((h.heL i).2 hi) ((h.heL j).2 hj) x)⟩
  · obtain ⟨p, q, r, s⟩ := h.counts
    obtain ⟨p', q', r', s'⟩ := h'.counts
    exact ⟨p'.trans p, q'.trans q, r'.trans r, s'.trans s⟩
  · have := h.grow; have := h'.grow; omega

theorem Separated.same {m m' : GMesh} (hv : m.Valid) {a b e' : ℕ} (he : m.heEdge a = m.heEdge b) (hs : Separated m m' a b e') :
    SameFaces m m' := by
  refine ⟨hs.next, hs.vertex, hs.face, hs.orient, hs.vHe, hs.fHe, hs.fill, hs.counts.2, ?_, hs.elive, ?_⟩
  · have := hs.nEFill; have := hs.counts.1; omega
  · intro i j hi hj x
    rw [hs.edge, hs.edge] at x
    split_ifs at x with h1 h2 h2
    · rcases h1 with rfl | rfl <;> rcases h2 with rfl | rfl <;> first | rfl | exact he | exact he.symm
    · exact absurd (x ▸ hv.edge_live j hj) hs.new.1
    · exact absurd (x ▸ hv.edge_live i hi) hs.new.1
    · exact x

/-- Old edges other than `e` keep their halfedges; new edges are thin. -/
structure Thinned (m m' : GMesh) (e : ℕ) : Prop where
  other : ∀ g, m.eL g → g ≠ e → ∀ h, m.heL h → (m'.heEdge h = g ↔ m.heEdge h = g)
  new : ∀ g, m'.eL g → ¬ m.eL g → m'.Thin g

theorem separateLoop_ok (e N : ℕ) : ∀ (n : ℕ) (m : GMesh), m.Valid → m.eL e → (∀ l, m.edgeHalfedges e = .ok l → l.length < n) →
    m.nEFill ≤ N + m.nE → 2 * (N + m.nHeFill) < INV →
    ∃ m', separateLoop e n m = .ok m' ∧ m'.Valid ∧ SameFaces m m' ∧ m'.Thin e ∧ Thinned m m' e
  | 0, m, hv, he, hlen, _, _ => by
    obtain ⟨l, hl, -⟩ := hv.edgeHalfedges_ok he
    exact absurd (hlen l hl) (by omega)
  | n + 1, m, hv, he, hlen, hN, hlim => by
    unfold separateLoop
    by_cases hm : m.isManifold e = true
    · rw [if_pos hm]
      exact ⟨m, rfl, hv, .refl m, thin_of_manifold hv he hm, ⟨fun _ _ _ _ _ => Iff.rfl, fun g h1 h2 => absurd h1 h2⟩⟩
    · rw [if_neg hm]
      obtain ⟨a, ea⟩ := hv.e_he e he
      unfold isManifold at hm
      simp only [Bool.or_eq_true, beq_iff_eq, not_or] at hm
      obtain ⟨m1, m2⟩ := hm
      have hb := hv.sib_live _ a
      have hc := hv.sib_live _ hb
      have eb := hv.edge_sib a
      have ec := hv.edge_sib hb
      obtain ⟨l, hl, hnd, hmem, -⟩ := hv.edgeHalfedges_ok he
      have hbc : m.heSibling (m.eHalfedge e) ≠ m.heSibling (m.heSibling (m.eHalfedge e)) := fun x =>
        m2 (hv.edges.inj (eKey_ne.2 a) (eKey_ne.2 hb) x).symm
      have h3 : 2 < l.length := by
        have hsub : [m.eHalfedge e, m.heSibling (m.eHalfedge e), m.heSibling (m.heSibling (m.eHalfedge e))] ⊆ l := by
          intro z hz
          rw [hmem]
          simp only [List.mem_cons, List.not_mem_nil, or_false] at hz
          rcases hz with rfl | rfl | rfl
          · exact ⟨a, ea⟩
          · exact ⟨hb, eb.trans ea⟩
          · exact ⟨hc, (ec.trans eb).trans ea⟩
        have hnd3 : [m.eHalfedge e, m.heSibling (m.eHalfedge e), m.heSibling (m.heSibling (m.eHalfedge e))].Nodup := by
          simp only [List.nodup_cons, List.mem_cons, List.not_mem_nil, or_false, not_or, not_false_eq_true,
            List.nodup_nil, and_true]
          exact ⟨⟨fun x => m2 x.symm, fun x => m1 x.symm⟩, hbc⟩
        have := (List.subperm_of_subset hnd3 hsub).length_le
        simp at this
        omega
      have hnE := hv.nE_le
      obtain ⟨m', e', r, hs, hv'⟩ := C28_separate hv a hb (fun x => m2 x.symm) eb.symm (l := l) (by rw [ea]; exact hl) h3 (by omega)
      simp only [bind, Except.bind, r]
      have hsame := hs.same hv eb.symm
      have he' := hs.elive e he
      obtain ⟨l', hl', hnd', hmem', -⟩ := hv'.edgeHalfedges_ok he'
      have hne : e' ≠ e := fun x => hs.new.1 (x ▸ he)
      have hshort : l'.length < l.length := by
        have hsub : l' ⊆ l.erase (m.eHalfedge e) := by
          intro z hz
          obtain ⟨z1, z2⟩ := (hmem' z).1 hz
          rw [hs.edge] at z2
          split_ifs at z2 with h1
          · exact absurd z2 hne
          · rw [List.Nodup.mem_erase_iff hnd, hmem]
            exact ⟨fun x => h1 (.inl x), (hsame.heL z).1 z1, z2⟩
        have h1 := (List.subperm_of_subset hnd' hsub).length_le
        rw [List.length_erase_of_mem ((hmem _).2 ⟨a, ea⟩)] at h1
        omega
      have hgrow := hsame.grow
      obtain ⟨m3, r3, hv3, hs3, ht3, hth3⟩ := separateLoop_ok e N n m' hv' he' (fun l2 h2 => by
        rw [hl'] at h2
        cases h2
        have := hlen l hl
        omega) (by omega) (by rw [hsame.fill]; exact hlim)
      refine ⟨m3, r3, hv3, hsame.trans hs3, ht3, ⟨?_, ?_⟩⟩
      · intro g hg hge h hh
        rw [hth3.other g (hs.elive g hg) hge h ((hsame.heL h).2 hh), hs.edge]
        split_ifs with h1
        · have : m.heEdge h = e := by
            rcases h1 with rfl | rfl
            · exact ea
            · exact eb.trans ea
          constructor
          · intro x; exact absurd (x ▸ hg) hs.new.1
          · intro x; exact absurd (x.symm.trans this) hge
        · exact Iff.rfl
      · intro g hg hng
        by_cases h1 : m'.eL g
        · have hge : g = e' := (hs.eonly g h1).resolve_left hng
          subst hge
          -- the new edge: nothing was added to it later
          intro x1 x2 x3 l1 l2 l3 e1 e2 e3
          have key : ∀ x, m3.heL x → m3.heEdge x = g → x = m.eHalfedge e ∨ x = m.heSibling (m.eHalfedge e) := by
            intro x hx ex
            have hx' := (hs3.heL x).1 hx
            rw [hth3.other g h1 hne x hx', hs.edge] at ex
            split_ifs at ex with h2
            · exact h2
            · exact absurd (ex ▸ hv.edge_live x ((hsame.heL x).1 hx')) hng
          rcases key x1 l1 e1 with p | p <;> rcases key x2 l2 e2 with q | q <;> rcases key x3 l3 e3 with r | r <;>
            simp [p, q, r]
        · exact hth3.new g hg h1

/-- **C28.**  `separateNonmanifoldEdges()` terminates on every valid general mesh (small enough that storage
is not refused) with every edge on at most two halfedges, and it changes no face and no vertex. -/
theorem C28 {m : GMesh} (hv : m.Valid) (hlim : ¬ m.nearLimit m.nHeFill) :
    ∃ m', m.separateNonmanifoldEdges = .ok m' ∧ m'.Valid ∧ SameFaces m m' ∧
      ∀ e, m'.eL e → ∃ l, m'.edgeHalfedges e = .ok l ∧ l.length ≤ 2 := by
  unfold nearLimit at hlim
  push Not at hlim
  unfold separateNonmanifoldEdges
  obtain ⟨m', r, hv', hs, ht, hn⟩ := range_inv (n := m.nEFill)
    (f := fun m e => if m.eHalfedge e = INV then .ok m else separateLoop e (m.nHeFill + 1) m)
    (s0 := m)
    (fun i m' => m'.Valid ∧ SameFaces m m' ∧ (∀ e, e < i → m'.eL e → m'.Thin e) ∧
      ∀ e, ¬ e < m.nEFill → m'.eL e → m'.Thin e)
    ⟨hv, .refl m, fun e h => absurd h (by omega), fun e h1 h2 => absurd h2.1 h1⟩ (by
      rintro i m1 hi ⟨hv1, hs1, ht1, hn1⟩
      by_cases hd : m1.eHalfedge i = INV
      · rw [if_pos hd]
        refine ⟨m1, rfl, hv1, hs1, fun e he hl => ?_, hn1⟩
        by_cases x : e = i
        · exact absurd (x ▸ hd) hl.2
        · exact ht1 e (by omega) hl
      · rw [if_neg hd]
        have hgrow := hs1.grow
        have hnE := hv.nE_le
        have hnE1 := hv1.nE_le
        have hfill := hs1.fill
        have hi1 : m1.eL i := by
          refine ⟨?_, hd⟩
          have : m.nE ≤ m1.nE := by
            -- the old edges are still live
            rw [hv.cnt_e, hv1.cnt_e, Nat.count_eq_card_filter_range, Nat.count_eq_card_filter_range]
            apply Finset.card_le_card
            intro e he
            rw [Finset.mem_filter, Finset.mem_range] at he ⊢
            exact hs1.elive e he
          omega
        obtain ⟨m2, r2, hv2, hs2, ht2, hth⟩ := separateLoop_ok i m.nEFill (m1.nHeFill + 1) m1 hv1 hi1 (fun l hl => by
          obtain ⟨l2, hl2, -, -, k, hk, hlk, -⟩ := hv1.edgeHalfedges_ok hi1
          rw [hl] at hl2
          cases hl2
          rw [hlk]; simp; omega) (by omega) (by rw [hfill]; omega)
        refine ⟨m2, r2, hv2, hs1.trans hs2, fun e he hl => ?_, fun e he hl => ?_⟩
        · by_cases x : e = i
          · rw [x]; exact ht2
          · by_cases hl1 : m1.eL e
            · intro h1 h2 h3 l1 l2 l3 e1 e2 e3
              have q1 := (hs2.heL h1).1 l1
              have q2 := (hs2.heL h2).1 l2
              have q3 := (hs2.heL h3).1 l3
              exact ht1 e (by omega) hl1 h1 h2 h3 q1 q2 q3 ((hth.other e hl1 x h1 q1).1 e1)
                ((hth.other e hl1 x h2 q2).1 e2) ((hth.other e hl1 x h3 q3).1 e3)
            · exact hth.new e hl hl1
        · by_cases hl1 : m1.eL e
          · intro h1 h2 h3 l1 l2 l3 e1 e2 e3
            have x : e ≠ i := fun x => he (by omega)
            have q1 := (hs2.heL h1).1 l1
            have q2 := (hs2.heL h2).1 l2
            have q3 := (hs2.heL h3).1 l3
            exact hn1 e he hl1 h1 h2 h3 q1 q2 q3 ((hth.other e hl1 x h1 q1).1 e1)
              ((hth.other e hl1 x h2 q2).1 e2) ((hth.other e hl1 x h3 q3).1 e3)
          · exact hth.new e hl hl1)
  refine ⟨m', r, hv', hs, fun e he => thin_length hv' he ?_⟩
  by_cases h : e < m.nEFill
  · exact ht e h he
  · exact hn e h he

/-- Length of the edge list of halfedge 0. -/
def bookMult (r : Res GMesh) : ℕ :=
  match r with
  | .ok m => match m.edgeHalfedges (m.heEdge 0) with
    | .ok l => l.length
    | .error _ => 0
  | .error _ => 0

/-- The three triangles of `book` are taken apart. -/
example : ∃ m m', fromPolygons book bookOrder = .ok m ∧ m.Valid ∧ m.separateNonmanifoldEdges = .ok m' ∧
    (∃ e l, m.eL e ∧ m.edgeHalfedges e = .ok l ∧ 2 < l.length) ∧
    ∀ e, m'.eL e → ∃ l, m'.edgeHalfedges e = .ok l ∧ l.length ≤ 2 := by
  obtain ⟨m, e, hb⟩ := book_built
  obtain ⟨m', e', -, -, h4⟩ := C28 hb.valid (hb.small (by decide) (by decide))
  refine ⟨m, m', e, hb.valid, e', ?_, h4⟩
  have h3 : bookMult (fromPolygons book bookOrder) = 3 := by decide +kernel
  have h0 : m.heL 0 := (hb.heL 0).2 (by decide)
  have hel := hb.valid.edge_live 0 h0
  obtain ⟨l, hl, -⟩ := hb.valid.edgeHalfedges_ok hel
  refine ⟨_, l, hel, hl, ?_⟩
  rw [e] at h3
  simp only [bookMult, hl] at h3
  omega

end GC.GMesh
