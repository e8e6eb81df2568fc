import Verif.Props.BuildEdges

/-!
# C27: `duplicateFace`
-/

namespace GC.GMesh

/-- Sibling keys after `j` new halfedges. -/
def dupKey (m : GMesh) (x : ℕ → ℕ) (n j h : ℕ) : Option ℕ :=
  if h < n then m.eKey h else if h < n + j then some (m.heEdge (x (h - n))) else none

/-- Invariant of the loop of `duplicateFace`: `x` are the halfedges of the face, `n` the first new
halfedge, `g` the new face, `j` halfedges done. -/
structure DP (m : GMesh) (x : ℕ → ℕ) (n g j : ℕ) (s : GMesh × Option ℕ) : Prop where
  eq : s.1 = { m with
    heNext := s.1.heNext, heVertex := s.1.heVertex, heEdge := s.1.heEdge, heOrient := s.1.heOrient
    heFace := s.1.heFace, heSibling := s.1.heSibling, fHalfedge := s.1.fHalfedge
    nHe := m.nHe + j, nHeFill := n + j, nHeCap := s.1.nHeCap }
  cap : n + j ≤ s.1.nHeCap ∧ s.1.nHeCap < INV
  prev : s.2 = if j = 0 then none else some (n + j - 1)
  old : ∀ h < n, s.1.heNext h = m.heNext h ∧ s.1.heVertex h = m.heVertex h ∧ s.1.heEdge h = m.heEdge h ∧
    s.1.heOrient h = m.heOrient h ∧ s.1.heFace h = m.heFace h
  new : ∀ i < j, s.1.heVertex (n + i) = m.heVertex (x i) ∧ s.1.heEdge (n + i) = m.heEdge (x i) ∧
    s.1.heOrient (n + i) = m.heOrient (x i) ∧ s.1.heFace (n + i) = g ∧ (i + 1 < j → s.1.heNext (n + i) = n + i + 1)
  fhe : ∀ f, s.1.fHalfedge f = if f = g ∧ j ≠ 0 then n else m.fHalfedge f
  key : KeyOrb s.1.heSibling (dupKey m x n j)
  sib : ∀ i < j, s.1.heSibling (x i) = n + i ∧ s.1.heSibling (n + i) = m.heSibling (x i)
  sibo : ∀ h < n, (∀ i < j, h ≠ x i) → s.1.heSibling h = m.heSibling h

theorem dupStep_ok {m : GMesh} {x : ℕ → ℕ} {n g j d : ℕ} {s : GMesh × Option ℕ} (hp : DP m x n g j s) (hj : j < d)
    (hL : ∀ i < d, m.heL (x i)) (hn : m.nHeFill = n) (hd : ∀ i i', i < i' → i' < d → x i ≠ x i')
    (hlim : 2 * (n + d) < INV) : ∃ s', dupStep g s (x j) = .ok s' ∧ DP m x n g (j + 1) s' := by
  have hxn : ∀ i < d, x i < n := fun i hi => by have := (hL i hi).1; omega
  have hne : ∀ i < j, x i ≠ x j := fun i hi => hd i j hi hj
  have hcap := hp.cap
  unfold dupStep getNewHalfedge
  have hfill : s.1.nHeFill = n + j := by rw [hp.eq]
  have hheC : s.1.nHe = m.nHe + j := by rw [hp.eq]
  rw [hfill]
  generalize hc : (if n + j < s.1.nHeCap then s.1.nHeCap else max (s.1.nHeCap * 2) 1) = c
  have hc' : n + (j + 1) ≤ c ∧ c < INV := by
    split_ifs at hc <;> omega
  simp only [hc]
  rw [if_neg (by omega), if_neg (by omega)]
  simp only [bind, Except.bind]
  refine ⟨_, rfl, ?_⟩
  have hx := hxn j hj
  obtain ⟨ox1, ox2, ox3, ox4, ox5⟩ := hp.old (x j) hx
  have hkey : KeyOrb (upd (upd s.1.heSibling (x j) (n + j)) (n + j) (s.1.heSibling (x j))) (dupKey m x n (j + 1)) := by
    have hA : dupKey m x n j (n + j) = none := by
      unfold dupKey; rw [if_neg (by omega), if_neg (by omega)]
    have hB : dupKey m x n j (x j) = some (m.heEdge (x j)) := by
      unfold dupKey; rw [if_pos hx]; exact eKey_some.2 ⟨hL j hj, rfl⟩
    refine (hp.key.insert hA hB).cast ?_
    funext h
    by_cases e : h = n + j
    · subst e
      rw [Function.update_self]
      unfold dupKey
      rw [if_neg (by omega), if_pos (by omega), Nat.add_sub_cancel_left]
    · rw [Function.update_of_ne e]
      unfold dupKey
      by_cases h1 : h < n
      · rw [if_pos h1, if_pos h1]
      · rw [if_neg h1, if_neg h1]
        by_cases h2 : h < n + j
        · rw [if_pos h2, if_pos (by omega)]
        · rw [if_neg h2, if_neg (by omega)]
  have hsx : s.1.heSibling (x j) = m.heSibling (x j) := hp.sibo _ hx (fun i hi e => hne i hi e.symm)
  have hsib : ∀ i < j + 1, upd (upd s.1.heSibling (x j) (n + j)) (n + j) (s.1.heSibling (x j)) (x i) = n + i ∧
      upd (upd s.1.heSibling (x j) (n + j)) (n + j) (s.1.heSibling (x j)) (n + i) = m.heSibling (x i) := by
    intro i hi
    have := hxn i (by omega)
    rw [upd_ne _ _ (show x i ≠ n + j by omega)]
    by_cases e : i = j
    · subst e; rw [upd_same, upd_same]; exact ⟨rfl, hsx⟩
    · rw [upd_ne _ _ (hne i (by omega)), upd_ne _ _ (show n + i ≠ n + j by omega), upd_ne _ _ (show n + i ≠ x j by omega)]
      exact hp.sib i (by omega)
  have hsibo : ∀ h < n, (∀ i < j + 1, h ≠ x i) →
      upd (upd s.1.heSibling (x j) (n + j)) (n + j) (s.1.heSibling (x j)) h = m.heSibling h := by
    intro h hh hx
    rw [upd_ne _ _ (by omega), upd_ne _ _ (hx j (by omega))]
    exact hp.sibo h hh (fun i hi => hx i (by omega))
  by_cases h0 : j = 0
  · subst h0
    have hpr : s.2 = none := by rw [hp.prev]; simp
    simp only [hpr]
    refine ⟨?_, hc', by simp, ?_, ?_, ?_, hkey, hsib, hsibo⟩
    · simp only
      rw [hp.eq]
      simp only [Nat.add_zero, Bool.false_eq_true, if_false]
    · intro h hh
      simp only
      rw [upd_ne _ _ (by omega), upd_ne _ _ (by omega), upd_ne _ _ (by omega), if_neg (by omega)]
      exact hp.old h hh
    · intro i hi
      have : i = 0 := by omega
      subst this
      simp only [Nat.add_zero, upd_same, if_true]
      exact ⟨ox2, ox3, ox4, trivial, by omega⟩
    · intro f
      simp only
      by_cases e : f = g
      · subst e; simp
      · rw [upd_ne _ _ e, hp.fhe, if_neg (fun k => e k.1), if_neg (fun k => e k.1)]
  · have hpr : s.2 = some (n + j - 1) := by rw [hp.prev, if_neg h0]
    simp only [hpr]
    refine ⟨?_, hc', by simp, ?_, ?_, ?_, hkey, hsib, hsibo⟩
    · simp only
      rw [hp.eq]
      simp only [Nat.add_assoc, Bool.false_eq_true, if_false]
    · intro h hh
      simp only
      rw [upd_ne _ _ (by omega), upd_ne _ _ (by omega), upd_ne _ _ (by omega), upd_ne _ _ (by omega), if_neg (by omega)]
      exact hp.old h hh
    · intro i hi
      simp only
      by_cases e : i = j
      · subst e
        simp only [upd_same, if_true]
        exact ⟨ox2, ox3, ox4, trivial, by omega⟩
      · obtain ⟨a, b, c', d', e'⟩ := hp.new i (by omega)
        rw [upd_ne _ _ (by omega), upd_ne _ _ (by omega), upd_ne _ _ (by omega), if_neg (by omega)]
        refine ⟨a, b, c', d', fun _ => ?_⟩
        by_cases e'' : i + 1 = j
        · rw [show n + i = n + j - 1 by omega, upd_same]; omega
        · rw [upd_ne _ _ (by omega)]; exact e' (by omega)
    · intro f
      simp only
      rw [hp.fhe]
      simp [h0]

/-- What `duplicateFace` leaves alone, and what it adds: face `g` with the new halfedges
`n, …, n + d - 1`, copies of the halfedges of `f`. -/
structure Duplicated (m m' : GMesh) (f g : ℕ) : Prop where
  new : ¬ m.fL g ∧ m'.fL g
  /-- other elements, live or not, keep everything but the sibling links -/
  old : ∀ h < m.nHeFill, m'.heNext h = m.heNext h ∧ m'.heVertex h = m.heVertex h ∧ m'.heFace h = m.heFace h ∧
    m'.heEdge h = m.heEdge h ∧ m'.heOrient h = m.heOrient h
  oldf : ∀ f', m.fL f' → m'.fL f' ∧ m'.fHalfedge f' = m.fHalfedge f'
  olde : m'.eHalfedge = m.eHalfedge
  oldv : m'.vHalfedge = m.vHalfedge
  /-- the halfedges of the two faces correspond: same vertices in the same order, same edges, same
  direction, and each copy follows its original in the sibling cycle -/
  copies : ∃ l l', m.faceHalfedges f = .ok l ∧ m'.faceHalfedges g = .ok l' ∧
    l'.map m'.heVertex = l.map m.heVertex ∧ l'.map m'.heEdge = l.map m.heEdge ∧ l'.map m'.heOrient = l.map m.heOrient ∧
    l.map m'.heSibling = l' ∧ l'.map m'.heSibling = l.map m.heSibling ∧
    (∀ h < m.nHeFill, h ∉ l → m'.heSibling h = m.heSibling h) ∧
    m'.nHe = m.nHe + l.length ∧ m'.nHeFill = m.nHeFill + l.length
  nF : m'.nF = m.nF + 1
  nE : m'.nE = m.nE
  nV : m'.nV = m.nV
  /-- the interior count is forgotten -/
  nInt : m'.nInt = m.nInt
  fills : g = m.nFFill ∧ m'.nFFill = m.nFFill + 1 ∧ m'.nEFill = m.nEFill ∧ m'.nVFill = m.nVFill
  fhe : ∀ f', f' ≠ g → m'.fHalfedge f' = m.fHalfedge f'
  /-- the copy of a halfedge is its new sibling; the new halfedges are the copies -/
  copy : ∀ h, m.heL h → m.heFace h = f → m.nHeFill ≤ m'.heSibling h ∧ m'.heSibling h < m'.nHeFill ∧
    m'.heNext (m'.heSibling h) = m'.heSibling (m.heNext h) ∧ m'.heVertex (m'.heSibling h) = m.heVertex h ∧
    m'.heEdge (m'.heSibling h) = m.heEdge h ∧ m'.heOrient (m'.heSibling h) = m.heOrient h ∧ m'.heFace (m'.heSibling h) = g
  only : ∀ c, m'.heL c → ¬ m.heL c → ∃ h, m.heL h ∧ m.heFace h = f ∧ m'.heSibling h = c

theorem range_map_foldlM {α σ : Type} (f : σ → α → Res σ) (x : ℕ → α) (d : ℕ) (s : σ) :
    ((List.range d).map x).foldlM f s = (List.range d).foldlM (fun s i => f s (x i)) s := by
  rw [List.foldlM_map]

/-- A mesh too small for the storage to be refused. -/
theorem dup_core {m : GMesh} (hv : m.Valid) {f : ℕ} (hf : m.fL f) (hlim : ¬ m.nearLimit m.nHeFill) :
    ∃ m' g, m.duplicateFace f = .ok (m', g) ∧ Duplicated m m' f g ∧ m'.Valid := by
  obtain ⟨l, hl, hnd, hmem, k, hkN, hlk, hhit⟩ := hv.faceHalfedges_ok hf
  obtain ⟨hf1, hf2⟩ := hv.f_he f hf
  unfold nearLimit at hlim
  push Not at hlim
  obtain ⟨hl1, hl2, hl3⟩ := hlim
  have hcapF := hv.f_cap
  have hcapH := hv.he_cap
  generalize hn : m.nHeFill = n at *
  generalize hdd : k + 1 = d at *
  have hd0 : 0 < d := by omega
  -- the halfedges of the face in order
  generalize hxd : (fun j => m.heNext^[j] (m.fHalfedge f)) = x at hlk
  have hx0 : x 0 = m.fHalfedge f := by rw [← hxd]; rfl
  have hxs : ∀ i, m.heNext (x i) = x (i + 1) := fun i => by
    rw [← hxd]; exact (Function.iterate_succ_apply' m.heNext i _).symm
  have hxk : x d = x 0 := by rw [hx0, ← hxd]; exact hhit
  have hxmem : ∀ i < d, m.heL (x i) ∧ m.heFace (x i) = f := fun i hi =>
    (hmem _).1 (by rw [hlk]; exact List.mem_map.2 ⟨i, List.mem_range.2 hi, rfl⟩)
  have hxd' : ∀ i i', i < i' → i' < d → x i ≠ x i' := by
    intro i i' h1 h2 e
    rw [hlk, List.Nodup, List.pairwise_map] at hnd
    have := List.pairwise_iff_getElem.1 hnd i i' (by simpa using by omega) (by simpa using h2) h1
    simp at this
    exact this e
  have hxmod : ∀ i < d, m.heNext (x i) = x ((i + 1) % d) := fun i hi => by
    rw [hxs]
    by_cases e : i + 1 = d
    · rw [e, Nat.mod_self, hxk]
    · rw [Nat.mod_eq_of_lt (by omega)]
  -- the new face
  unfold duplicateFace
  have hg : m.getNewFace = .ok ({ m with
      nFCap := if m.nFFill < m.nFCap then m.nFCap else m.nFCap * 2, nF := m.nF + 1, nFFill := m.nFFill + 1 }, m.nFFill) := by
    unfold getNewFace
    simp only
    have := hf.1
    rw [if_neg, if_neg]
    · split_ifs <;> omega
    · split_ifs <;> omega
  rw [hg]
  simp only [bind, Except.bind]
  have hcF : m.nFFill + 1 ≤ (if m.nFFill < m.nFCap then m.nFCap else m.nFCap * 2) ∧
      (if m.nFFill < m.nFCap then m.nFCap else m.nFCap * 2) < INV := by
    have := hf.1
    split_ifs <;> omega
  generalize hcFd : (if m.nFFill < m.nFCap then m.nFCap else m.nFCap * 2) = cF at *
  clear hg hcFd
  generalize hg : m.nFFill = g at *
  generalize hm1 : ({ m with nFCap := cF, nF := m.nF + 1, nFFill := g + 1 } : GMesh) = m1
  have hfh1 : m1.faceHalfedges f = .ok l := by rw [← hl, ← hm1]; rfl
  rw [hfh1]
  simp only
  have e1 : m1.eKey = m.eKey := by rw [← hm1]; rfl
  have e2 : ∀ h, m1.heL h ↔ m.heL h := fun h => by rw [← hm1]; exact Iff.rfl
  have hn1 : m1.nHeFill = n := by rw [← hm1, ← hn]
  have h0 : DP m1 x n g 0 (m1, none) := by
    refine ⟨?_, ⟨?_, ?_⟩, rfl, fun h _ => ⟨rfl, rfl, rfl, rfl, rfl⟩, by simp, by simp, ?_, by simp, fun _ _ _ => rfl⟩
    · simp only [Nat.add_zero]; rw [← hn1]
    · rw [← hm1]; exact hcapH.1
    · rw [← hm1]; exact hcapH.2
    · have : KeyOrb m1.heSibling m.eKey := by rw [← hm1]; exact hv.edges
      refine this.cast ?_
      funext h
      unfold dupKey
      rw [e1]
      by_cases hh : h < n
      · rw [if_pos hh]
      · rw [if_neg hh, if_neg (by omega)]
        by_contra hc
        exact hh (by rw [← hn]; exact (eKey_ne.1 hc).1)
  obtain ⟨s, hs, hD⟩ := range_inv (f := fun s i => dupStep g s (x i)) (n := d) (DP m1 x n g) h0 (by
    intro i s hi hP
    exact dupStep_ok hP hi (fun i hi => (e2 _).2 (hxmem i hi).1) hn1 hxd' (by omega))
  have hs' : l.foldlM (dupStep g) (m1, none) = .ok s := by rw [hlk, range_map_foldlM]; exact hs
  rw [hs']
  simp only
  have hpr := hD.prev
  rw [if_neg (by omega)] at hpr
  rw [hpr]
  simp only
  generalize hm3 : ({ s.1 with heNext := upd s.1.heNext (n + d - 1) (s.1.fHalfedge g) } : GMesh) = m3
  -- the arrays
  have m1N : m1.heNext = m.heNext := by rw [← hm1]
  have m1V : m1.heVertex = m.heVertex := by rw [← hm1]
  have m1E : m1.heEdge = m.heEdge := by rw [← hm1]
  have m1O : m1.heOrient = m.heOrient := by rw [← hm1]
  have m1F : m1.heFace = m.heFace := by rw [← hm1]
  have m1S : m1.heSibling = m.heSibling := by rw [← hm1]
  have hold : ∀ h < n, m3.heNext h = m.heNext h ∧ m3.heVertex h = m.heVertex h ∧ m3.heFace h = m.heFace h ∧
      m3.heEdge h = m.heEdge h ∧ m3.heOrient h = m.heOrient h := by
    intro h hh
    obtain ⟨a, b, c, d', e⟩ := hD.old h hh
    rw [← hm3]
    simp only
    rw [upd_ne _ _ (by omega), a, b, c, d', e, m1N, m1V, m1E, m1O, m1F]
    simp
  have hnew : ∀ i < d, m3.heNext (n + i) = n + (i + 1) % d ∧ m3.heVertex (n + i) = m.heVertex (x i) ∧
      m3.heEdge (n + i) = m.heEdge (x i) ∧ m3.heOrient (n + i) = m.heOrient (x i) ∧ m3.heFace (n + i) = g := by
    intro i hi
    obtain ⟨a, b, c, d', e⟩ := hD.new i hi
    rw [← hm3]
    simp only
    rw [m1V] at a
    rw [m1E] at b
    rw [m1O] at c
    refine ⟨?_, a, b, c, d'⟩
    by_cases e' : i + 1 = d
    · rw [show n + i = n + d - 1 by omega, upd_same, e', Nat.mod_self, hD.fhe, if_pos ⟨rfl, by omega⟩, Nat.add_zero]
    · rw [upd_ne _ _ (by omega), e (by omega), Nat.mod_eq_of_lt (by omega)]; omega
  have hS3 : m3.heSibling = s.1.heSibling := by rw [← hm3]
  have heq3 : m3 = { m with
      heNext := m3.heNext, heVertex := m3.heVertex, heEdge := m3.heEdge, heOrient := m3.heOrient
      heFace := m3.heFace, heSibling := m3.heSibling, fHalfedge := m3.fHalfedge
      nHe := m.nHe + d, nHeFill := n + d, nHeCap := m3.nHeCap, nF := m.nF + 1, nFFill := g + 1, nFCap := cF } := by
    have := hD.eq
    rw [← hm3]
    simp only
    rw [this, ← hm1]
  have hfh3 : ∀ f', m3.fHalfedge f' = if f' = g then n else m.fHalfedge f' := by
    intro f'
    have hh := hD.fhe f'
    rw [← hm3]
    simp only
    rw [hh, ← hm1]
    simp [Nat.pos_iff_ne_zero.1 hd0]
  have hcap3 : n + d ≤ m3.nHeCap ∧ m3.nHeCap < INV := by rw [← hm3]; exact hD.cap
  -- live halfedges
  have hmodlt : ∀ i, (i + 1) % d < d := fun i => Nat.mod_lt _ hd0
  have hfill3 : m3.nHeFill = n + d := by rw [heq3]
  have hL3 : ∀ h, m3.heL h ↔ (h < n ∧ m.heL h) ∨ (∃ i, i < d ∧ h = n + i) := by
    intro h
    unfold heL
    rw [hfill3]
    by_cases hh : h < n
    · rw [(hold h hh).1, hn]
      refine ⟨fun a => .inl ⟨hh, hh, a.2⟩, fun a => ?_⟩
      rcases a with a | ⟨i, hi, e⟩
      · exact ⟨by omega, a.2.2⟩
      · omega
    · refine ⟨fun a => .inr ⟨h - n, by omega, by omega⟩, fun a => ?_⟩
      rcases a with a | ⟨i, hi, rfl⟩
      · omega
      · refine ⟨by omega, ?_⟩
        rw [(hnew i hi).1]
        have := hmodlt i
        omega
  have hLn : ∀ h, m.heL h → h < n := fun h hh => by rw [← hn]; exact hh.1
  have hL3o : ∀ h, m.heL h → m3.heL h := fun h hh => (hL3 h).2 (.inl ⟨hLn h hh, hh⟩)
  have hL3n : ∀ i < d, m3.heL (n + i) := fun i hi => (hL3 _).2 (.inr ⟨i, hi, rfl⟩)
  have tip_new : ∀ i < d, m3.tip (n + i) = m.tip (x i) := by
    intro i hi
    unfold tip
    rw [(hnew i hi).1, (hnew _ (hmodlt i)).2.1, hxmod i hi]
  have tip_old : ∀ h, m.heL h → m3.tip h = m.tip h := by
    intro h hh
    have h1 := hLn h hh
    have h2 := hLn _ (hv.next_live h hh)
    unfold tip
    rw [(hold h h1).1, (hold _ h2).2.1]
  -- every live halfedge looks like an old one
  have phi : ∀ h, m3.heL h → ∃ q, m.heL q ∧ m3.heVertex h = m.heVertex q ∧ m3.tip h = m.tip q ∧
      m3.heEdge h = m.heEdge q ∧ m3.heOrient h = m.heOrient q := by
    intro h hh
    rcases (hL3 h).1 hh with ⟨a, b⟩ | ⟨i, hi, rfl⟩
    · obtain ⟨-, o2, -, o4, o5⟩ := hold h a
      exact ⟨h, b, o2, tip_old h b, o4, o5⟩
    · obtain ⟨-, o2, o3, o4, -⟩ := hnew i hi
      exact ⟨x i, (hxmem i hi).1, o2, tip_new i hi, o3, o4⟩
  -- the list of the new face
  have hit : ∀ j, m3.heNext^[j] n = n + j % d := block_orbit hd0 (fun i hi => (hnew i hi).1)
  have hlist3 : m3.faceHalfedges g = .ok ((List.range d).map (fun j => n + j)) := by
    unfold faceHalfedges
    rw [hfh3, if_pos rfl, hfill3]
    obtain ⟨k', hk1, hk2, hk3, hk4⟩ := Mesh.orbitList_ok (f := m3.heNext) (x := n) (N := n + d)
      ⟨d - 1, by rw [← Function.iterate_succ_apply, hit, show (d - 1).succ = d by omega, Nat.mod_self]; simp⟩
      (fun z hz => by
        obtain ⟨j, rfl⟩ := hz
        rw [hit]
        have := Nat.mod_lt j hd0
        omega)
    rw [hit] at hk2
    have hdv : d ∣ k' + 1 := Nat.dvd_of_mod_eq_zero (by omega)
    have hle := Nat.le_of_dvd (by omega) hdv
    have hk : k' + 1 = d := by
      by_contra hc
      refine hk3 (d - 1) (by omega) ?_
      rw [hit, show d - 1 + 1 = d by omega, Nat.mod_self, Nat.add_zero]
    rw [hk4, hk]
    congr 1
    apply List.map_congr_left
    intro j hj
    rw [hit, Nat.mod_eq_of_lt (List.mem_range.1 hj)]
  rw [hlist3]
  simp only
  have hadd := fold_addLists m3 ((List.range d).map (fun j => n + j))
  generalize hm4 : ((List.range d).map (fun j => n + j)).foldl addToVertexLists m3 = m4 at *
  refine ⟨m4, g, rfl, ?_, ?_⟩
  · -- the description
    have q1 : m4.heNext = m3.heNext := by rw [hadd]
    have q2 : m4.heVertex = m3.heVertex := by rw [hadd]
    have q3 : m4.heFace = m3.heFace := by rw [hadd]
    have q4 : m4.heEdge = m3.heEdge := by rw [hadd]
    have q5 : m4.heOrient = m3.heOrient := by rw [hadd]
    have q6 : m4.fHalfedge = m3.fHalfedge := by rw [hadd]
    have q7 : m4.heSibling = m3.heSibling := by rw [hadd]
    have q8 : m4.nHeFill = n + d := by rw [hadd]; exact hfill3
    have q9 : m4.nFFill = g + 1 := by rw [hadd]; simp only; rw [heq3]
    have hlen : l.length = d := by rw [hlk]; simp
    refine ⟨⟨fun a => by have := a.1; omega, ?_, ?_⟩, ?_, ?_, ?_, ?_, ⟨l, (List.range d).map (fun j => n + j), hl, ?_, ?_, ?_, ?_, ?_, ?_, ?_, ?_, ?_⟩, ?_, ?_, ?_, ?_, ⟨hg.symm, ?_, ?_, ?_⟩, ?_, ?_, ?_⟩
    · omega
    · rw [q6, hfh3, if_pos rfl]; omega
    · intro h hh
      rw [q1, q2, q3, q4, q5]
      exact hold h (by omega)
    · intro f' hf'
      have h1 := hf'.1
      have h2 : m4.fHalfedge f' = m.fHalfedge f' := by rw [q6, hfh3, if_neg (by omega)]
      exact ⟨⟨by omega, by rw [h2]; exact hf'.2⟩, h2⟩
    · rw [hadd, heq3]
    · rw [hadd, heq3]
    · unfold faceHalfedges at hlist3 ⊢
      rw [q1, q6, q8, ← hfill3]; exact hlist3
    · rw [hlk, q2, List.map_map, List.map_map]
      exact List.map_congr_left (fun i hi => (hnew i (List.mem_range.1 hi)).2.1)
    · rw [hlk, q4, List.map_map, List.map_map]
      exact List.map_congr_left (fun i hi => (hnew i (List.mem_range.1 hi)).2.2.1)
    · rw [hlk, q5, List.map_map, List.map_map]
      exact List.map_congr_left (fun i hi => (hnew i (List.mem_range.1 hi)).2.2.2.1)
    · rw [hlk, q7, hS3, List.map_map]
      exact List.map_congr_left (fun i hi => (hD.sib i (List.mem_range.1 hi)).1)
    · rw [hlk, q7, hS3, List.map_map, List.map_map]
      exact List.map_congr_left (fun i hi => by
        have := (hD.sib i (List.mem_range.1 hi)).2
        rw [m1S] at this; exact this)
    · intro h hh hnl
      rw [q7, hS3, hD.sibo h (by omega) (fun i hi e => hnl (by
        rw [hlk, e]; exact List.mem_map.2 ⟨i, List.mem_range.2 hi, rfl⟩)), m1S]
    · rw [hadd, hlen, heq3]
    · rw [q8, hlen, hn]
    · rw [hadd, heq3]
    · rw [hadd, heq3]
    · rw [hadd, heq3]
    · rw [hadd, heq3]
    · rw [q9, hg]
    · rw [hadd, heq3]
    · rw [hadd, heq3]
    · intro f' hf'
      rw [q6, hfh3, if_neg hf']
    · intro h hh hhf
      obtain ⟨i, hi, rfl⟩ := List.mem_map.1 (by have := (hmem h).2 ⟨hh, hhf⟩; rwa [hlk] at this)
      have hi := List.mem_range.1 hi
      have e1 : m4.heSibling (x i) = n + i := by rw [q7, hS3]; exact (hD.sib i hi).1
      have e2 : m4.heSibling (m.heNext (x i)) = n + (i + 1) % d := by rw [q7, hS3, hxmod i hi]; exact (hD.sib _ (hmodlt i)).1
      obtain ⟨a, b, c, d', e⟩ := hnew i hi
      rw [e1, e2, q1, q2, q3, q4, q5, q8, hn]
      exact ⟨by omega, by omega, a, b, c, d', e⟩
    · intro c hc hc'
      have : m3.heL c := by unfold heL at hc ⊢; rw [q1, q8, ← hfill3] at hc; exact hc
      rcases (hL3 c).1 this with a | ⟨i, hi, rfl⟩
      · exact absurd a.2 hc'
      · exact ⟨x i, (hxmem i hi).1, (hxmem i hi).2, by rw [q7, hS3]; exact (hD.sib i hi).1⟩
  · -- validity
    have hkeyF : KeyOrb m3.heNext (fun h => if m3.heL h then some (m3.heFace h) else none) := by
      have hs : ∀ h v, (if m3.heL h then some (m3.heFace h) else none) = some v ↔
          (m.heL h ∧ m.heFace h = v) ∨ (∃ i, i < d ∧ h = n + i ∧ v = g) := by
        intro h v
        by_cases hh : m3.heL h
        · rw [if_pos hh]
          rcases (hL3 h).1 hh with ⟨a, b⟩ | ⟨i, hi, rfl⟩
          · rw [(hold h a).2.2.1]
            constructor
            · intro e; exact .inl ⟨b, Option.some.inj e⟩
            · rintro (⟨-, e⟩ | ⟨i, -, e, -⟩)
              · rw [e]
              · omega
          · rw [(hnew i hi).2.2.2.2]
            constructor
            · intro e; exact .inr ⟨i, hi, rfl, (Option.some.inj e).symm⟩
            · rintro (⟨e, -⟩ | ⟨i, -, -, e⟩)
              · have := hLn _ e; omega
              · rw [e]
        · rw [if_neg hh]
          constructor
          · intro e; cases e
          · rintro (⟨e, -⟩ | ⟨i, hi, e, -⟩)
            · exact absurd (hL3o h e) hh
            · exact absurd (e ▸ hL3n i hi) hh
      have hfg : ∀ h, m.heL h → m.heFace h ≠ g := fun h hh e => by
        have := (hv.face_live h hh).1
        omega
      refine ⟨fun h v hA => ?_, fun h h' v hA hA' => ?_⟩
      · rw [hs] at hA ⊢
        rcases hA with ⟨a, b⟩ | ⟨i, hi, rfl, e⟩
        · left
          rw [(hold h (hLn h a)).1]
          exact ⟨hv.next_live h a, by rw [hv.face_next a]; exact b⟩
        · right
          rw [(hnew i hi).1]
          exact ⟨_, hmodlt i, rfl, e⟩
      · rw [hs] at hA hA'
        rcases hA with ⟨a, b⟩ | ⟨i, hi, rfl, e⟩ <;> rcases hA' with ⟨a', b'⟩ | ⟨i', hi', rfl, e'⟩
        · exact (Orb.congr (fun z => m.heL z) a (fun z hz => hv.next_live z hz)
            (fun z hz => ((hold z (hLn z hz)).1).symm)).1 ((hv.face_iff h h' a a').1 (by rw [b, b']))
        · exact absurd (b.trans e') (hfg h a)
        · exact absurd (b'.trans e) (hfg h' a')
        · refine ⟨d - i + i', ?_⟩
          have h1 : m3.heNext^[i] n = n + i := by rw [hit, Nat.mod_eq_of_lt hi]
          rw [← h1, ← Function.iterate_add_apply, hit, show d - i + i' + i = i' + d by omega, Nat.add_mod_right,
            Nat.mod_eq_of_lt hi']
    have hkeyE : KeyOrb m3.heSibling (fun h => if m3.heL h then some (m3.heEdge h) else none) := by
      have := hD.key
      rw [← hS3] at this
      refine this.cast ?_
      funext h
      unfold dupKey
      by_cases h1 : h < n
      · rw [if_pos h1, e1]
        unfold eKey
        have : m.heL h ↔ m3.heL h := by
          rw [hL3]
          refine ⟨fun a => .inl ⟨h1, a⟩, fun a => ?_⟩
          rcases a with a | ⟨i, hi, e⟩
          · exact a.2
          · omega
        by_cases h2 : m.heL h
        · rw [if_pos h2, if_pos (this.1 h2), (hold h h1).2.2.2.1]
        · rw [if_neg h2, if_neg (fun c => h2 (this.2 c))]
      · rw [if_neg h1]
        by_cases h2 : h < n + d
        · obtain ⟨i, rfl⟩ : ∃ i, h = n + i := ⟨h - n, by omega⟩
          rw [if_pos h2, if_pos (hL3n i (by omega)), (hnew i (by omega)).2.2.1, Nat.add_sub_cancel_left, m1E]
        · rw [if_neg h2, if_neg]
          intro c
          have := c.1
          rw [hfill3] at this
          omega
    have hL4 : ∀ h, m4.heL h ↔ m3.heL h := fun h => by rw [hadd]; exact Iff.rfl
    obtain ⟨hF1, hF2⟩ := iff_of_key hkeyF
    obtain ⟨hE1, hE2⟩ := iff_of_key hkeyE
    have hVL : ∀ v, m3.vL v ↔ m.vL v := fun v => by rw [heq3]; exact Iff.rfl
    have hEL : ∀ v, m3.eL v ↔ m.eL v := fun v => by rw [heq3]; exact Iff.rfl
    have hff : m3.nFFill = g + 1 := by rw [heq3]
    have hFL : ∀ f', m3.fL f' ↔ m.fL f' ∨ f' = g := by
      intro f'
      unfold fL
      rw [hfh3, hff, hg]
      by_cases e : f' = g
      · subst e; simp; omega
      · rw [if_neg e]
        constructor
        · intro a; exact .inl ⟨by omega, a.2⟩
        · rintro (a | a)
          · exact ⟨by omega, a.2⟩
          · exact absurd a e
    have hal : ∀ i j, m3.heL i → m3.heL j → m3.heEdge i = m3.heEdge j → m3.aligned i j := by
      intro i j hi hj e
      obtain ⟨q, a1, a2, a3, a4, a5⟩ := phi i hi
      obtain ⟨q', b1, b2, b3, b4, b5⟩ := phi j hj
      have := hv.orient q q' a1 b1 (by rw [← a4, ← b4, e])
      unfold aligned at this ⊢
      rw [a2, a3, a5, b2, b3, b5]
      exact this
    have ringmem : ∀ h, h ∈ (List.range d).map (fun j => n + j) ↔ ∃ i, i < d ∧ h = n + i := by
      intro h
      rw [List.mem_map]
      exact ⟨fun ⟨i, a, b⟩ => ⟨i, List.mem_range.1 a, b.symm⟩, fun ⟨i, a, b⟩ => ⟨i, List.mem_range.2 a, b.symm⟩⟩
    have ringnd : ((List.range d).map (fun j => n + j)).Nodup :=
      List.Nodup.map (fun a b (e : n + a = n + b) => by omega) List.nodup_range
    have hrings : m3.rin = m.rin ∧ m3.rout = m.rout := by rw [heq3]; exact ⟨rfl, rfl⟩
    have notL : ∀ i, ¬ m.heL (n + i) := fun i c => by have := hLn _ c; omega
    rw [hadd]
    refine ⟨?_, ?_, ?_, ?_, hF1, hE1, ?_, ?_, ?_, hF2, hE2, ?_, ?_, ?_, hal, ?_, ?_, ?_, ?_, ?_, ?_⟩
    · simp only [hfill3]; exact hcap3
    · simp only; rw [heq3]; exact hv.v_cap
    · simp only; rw [heq3]; exact hv.e_cap
    · simp only; rw [heq3]; exact hcF
    · intro i hi
      obtain ⟨q, a1, a2, -⟩ := phi i hi
      show m3.vL (m3.heVertex i)
      rw [hVL, a2]; exact hv.vertex_live q a1
    · intro i hi
      show m3.fL (m3.heFace i)
      rw [hFL]
      rcases (hL3 i).1 hi with ⟨a, b⟩ | ⟨j, hj, rfl⟩
      · rw [(hold i a).2.2.1]; exact .inl (hv.face_live i b)
      · exact .inr (hnew j hj).2.2.2.2
    · intro i hi
      obtain ⟨q, a1, -, -, a4, -⟩ := phi i hi
      show m3.eL (m3.heEdge i)
      rw [hEL, a4]; exact hv.edge_live q a1
    · intro v hv'
      have h1 := hv.v_he v ((hVL v).1 hv')
      have h2 : m3.vHalfedge v = m.vHalfedge v := by rw [heq3]
      show m3.heL (m3.vHalfedge v) ∧ m3.heVertex (m3.vHalfedge v) = v
      rw [h2]
      exact ⟨hL3o _ h1.1, by rw [(hold _ (hLn _ h1.1)).2.1]; exact h1.2⟩
    · intro f' hf'
      show m3.heL (m3.fHalfedge f') ∧ m3.heFace (m3.fHalfedge f') = f'
      rw [hfh3]
      by_cases e : f' = g
      · rw [if_pos e, e]
        have := (hnew 0 hd0).2.2.2.2
        exact ⟨hL3n 0 hd0, this⟩
      · rw [if_neg e]
        have h1 := hv.f_he f' (((hFL f').1 hf').resolve_right e)
        exact ⟨hL3o _ h1.1, by rw [(hold _ (hLn _ h1.1)).2.2.1]; exact h1.2⟩
    · intro e he
      have h1 := hv.e_he e ((hEL e).1 he)
      have h2 : m3.eHalfedge e = m.eHalfedge e := by rw [heq3]
      show m3.heL (m3.eHalfedge e) ∧ m3.heEdge (m3.eHalfedge e) = e
      rw [h2]
      exact ⟨hL3o _ h1.1, by rw [(hold _ (hLn _ h1.1)).2.2.2.1]; exact h1.2⟩
    · simp only
      rw [hrings.1]
      refine (Ring.fold_add hv.in_ring m3.tip _ ringnd (fun h hh => ?_)).cast ?_ ?_
      · obtain ⟨i, hi, rfl⟩ := (ringmem h).1 hh
        refine ⟨if_neg (notL i), by omega, ?_⟩
        rw [tip_new i hi]
        exact hv.vertex_live _ (hv.next_live _ (hxmem i hi).1)
      · funext h
        show _ = if m3.heL h then some (m3.tip h) else none
        by_cases hh : h ∈ (List.range d).map (fun j => n + j)
        · obtain ⟨i, hi, rfl⟩ := (ringmem h).1 hh
          rw [if_pos hh, if_pos (hL3n i hi)]
        · rw [if_neg hh]
          by_cases h2 : m.heL h
          · rw [if_pos h2, if_pos (hL3o h h2), tip_old h h2]
          · rw [if_neg h2, if_neg]
            intro c
            rcases (hL3 h).1 c with a | a
            · exact h2 a.2
            · exact hh ((ringmem h).2 a)
      · funext v; exact propext (hVL v).symm
    · simp only
      rw [hrings.2]
      refine (Ring.fold_add hv.out_ring m3.heVertex _ ringnd (fun h hh => ?_)).cast ?_ ?_
      · obtain ⟨i, hi, rfl⟩ := (ringmem h).1 hh
        refine ⟨if_neg (notL i), by omega, ?_⟩
        rw [(hnew i hi).2.1]
        exact hv.vertex_live _ (hxmem i hi).1
      · funext h
        show _ = if m3.heL h then some (m3.heVertex h) else none
        by_cases hh : h ∈ (List.range d).map (fun j => n + j)
        · obtain ⟨i, hi, rfl⟩ := (ringmem h).1 hh
          rw [if_pos hh, if_pos (hL3n i hi)]
        · rw [if_neg hh]
          by_cases h2 : m.heL h
          · rw [if_pos h2, if_pos (hL3o h h2), (hold h (hLn h h2)).2.1]
          · rw [if_neg h2, if_neg]
            intro c
            rcases (hL3 h).1 c with a | a
            · exact h2 a.2
            · exact hh ((ringmem h).2 a)
      · funext v; exact propext (hVL v).symm
    · simp only
      rw [hfill3, Nat.count_add, show m3.nHe = m.nHe + d by rw [heq3], hv.cnt_he, hn]
      congr 1
      · exact GC.count_congr (fun i hi => by rw [(hold i hi).1])
      · exact (count_all (fun i hi => by
          rw [(hnew i hi).1]; have := hmodlt i; omega)).symm
    · simp only; rw [heq3]; exact hv.cnt_e
    · simp only; rw [heq3]; exact hv.cnt_v
    · simp only
      rw [hff, Nat.count_succ, show m3.nF = m.nF + 1 by rw [heq3], hv.cnt_f, hg, hfh3, if_pos rfl, if_pos (by omega)]
      congr 1
      exact GC.count_congr (fun i hi => by rw [hfh3, if_neg (by omega)])

/-- **C27, without the interior count.**  `duplicateFace(f)` succeeds on every face of a valid general mesh
(small enough that storage is not refused) and leaves a valid mesh with one more face, whose halfedges copy
those of `f`: same vertices in the same order, same edges and directions, each copy right after its
original in the sibling cycle.  Everything else is unchanged.  The full statement also wants
`m'.nInt = m.nInt + l.length`; `C27_fails` shows the code never does that. -/
theorem C27_partial {m : GMesh} (hv : m.Valid) {f : ℕ} (hf : m.fL f) (hlim : ¬ m.nearLimit m.nHeFill) :
    ∃ m' g, m.duplicateFace f = .ok (m', g) ∧ Duplicated m m' f g ∧ m'.Valid := dup_core hv hf hlim

/-- **C27 fails, everywhere.**  `nInteriorHalfedges()` does not grow by the degree of the face, on no
mesh and for no face: the new halfedges are requested with `getNewHalfedge(false)`. -/
theorem C27_fails {m m' : GMesh} (hv : m.Valid) {f g : ℕ} (hf : m.fL f) (hlim : ¬ m.nearLimit m.nHeFill)
    (hd : m.duplicateFace f = .ok (m', g)) :
    ∃ l, m'.faceHalfedges g = .ok l ∧ 0 < l.length ∧ m'.nInt ≠ m.nInt + l.length := by
  obtain ⟨m1, g1, e, hD, hv'⟩ := dup_core hv hf hlim
  rw [hd] at e
  cases e
  obtain ⟨l, h1, h2, h3, k, -, h4, -⟩ := hv'.faceHalfedges_ok hD.new.2
  have : 0 < l.length := by rw [h4]; simp
  exact ⟨l, h1, this, by rw [hD.nInt]; omega⟩

/-- Duplicating the first triangle of `book`: before, all halfedges were counted as interior; after,
three are missing. -/
example : ∃ m m' g, fromPolygons book bookOrder = .ok m ∧ m.Valid ∧ m.fL 0 ∧ m.nInt = m.nHe ∧
    m.duplicateFace 0 = .ok (m', g) ∧ m'.Valid ∧ m'.nInt ≠ m'.nHe := by
  obtain ⟨m, e, hb⟩ := book_built
  have hf : m.fL 0 := (hb.fL 0).2 (by decide)
  have hsmall := hb.small (by decide) (by decide)
  obtain ⟨m', g, e', hD, hv'⟩ := C27_partial hb.valid hf hsmall
  refine ⟨m, m', g, e, hb.valid, hf, by rw [hb.he.1, hb.he.2.1], e', hv', ?_⟩
  obtain ⟨l, l', h1, h2, h3, -, -, -, -, -, h4, -⟩ := hD.copies
  obtain ⟨l2, a1, -, -, k, -, a4, -⟩ := hb.valid.faceHalfedges_ok hf
  rw [h1] at a1
  cases a1
  have : 0 < l.length := by rw [a4]; simp
  rw [hD.nInt, hb.he.2.1, h4, hb.he.1]
  omega

end GC.GMesh
