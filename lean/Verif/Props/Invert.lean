import Verif.Props.BuildEdges
import Verif.GMeshBasic
import Mathlib.Data.List.Rotate

/-!
# C26: `invertOrientation` reverses a face and nothing else
-/

namespace GC.GMesh

/-- What the loop has done after `j` rounds, `x` being the halfedges of the face in order. -/
def invSt (m : GMesh) (x : ℕ → ℕ) : ℕ → GMesh
  | 0 => m
  | j + 1 => { invSt m x j with
      heVertex := upd (invSt m x j).heVertex (x j) (m.heVertex (x (j + 1)))
      vHalfedge := upd (invSt m x j).vHalfedge (m.heVertex (x (j + 1))) (x j)
      heOrient := fun h => if h = x j then !m.heOrient (x j) else (invSt m x j).heOrient h
      heNext := if j = 0 then (invSt m x j).heNext else upd (invSt m x j).heNext (x j) (x (j - 1)) }

section
variable {m : GMesh} {x : ℕ → ℕ}

theorem invSt_rest (j : ℕ) : invSt m x j = { m with
    heVertex := (invSt m x j).heVertex, vHalfedge := (invSt m x j).vHalfedge
    heOrient := (invSt m x j).heOrient, heNext := (invSt m x j).heNext } := by
  induction j with
  | zero => rfl
  | succ j ih => unfold invSt; rw [ih]

theorem invSt_untouched (j h : ℕ) (hh : ∀ i < j, h ≠ x i) :
    (invSt m x j).heVertex h = m.heVertex h ∧ (invSt m x j).heOrient h = m.heOrient h ∧
      (invSt m x j).heNext h = m.heNext h := by
  induction j with
  | zero => exact ⟨rfl, rfl, rfl⟩
  | succ j ih =>
    obtain ⟨a, b, c⟩ := ih (fun i hi => hh i (by omega))
    have hj := hh j (by omega)
    refine ⟨?_, ?_, ?_⟩
    · rw [invSt]; simp only; rw [upd_ne _ _ hj]; exact a
    · rw [invSt]; simp only; rw [if_neg hj]; exact b
    · rw [invSt]; simp only
      split_ifs with h0
      · exact c
      · rw [upd_ne _ _ hj]; exact c

theorem invSt_touched (hd : ∀ i i', i < i' → i' < k → x i ≠ x i') (j : ℕ) (hj : j ≤ k) (i : ℕ) (hi : i < j) :
    (invSt m x j).heVertex (x i) = m.heVertex (x (i + 1)) ∧ (invSt m x j).heOrient (x i) = !m.heOrient (x i) ∧
      (i ≠ 0 → (invSt m x j).heNext (x i) = x (i - 1)) := by
  induction j with
  | zero => omega
  | succ j ih =>
    by_cases e : i = j
    · subst e
      refine ⟨?_, ?_, fun h0 => ?_⟩
      · rw [invSt]; simp
      · rw [invSt]; simp
      · rw [invSt]; simp [h0]
    · have hne : x i ≠ x j := hd i j (by omega) (by omega)
      obtain ⟨a, b, c⟩ := ih (by omega) (by omega)
      refine ⟨?_, ?_, fun h0 => ?_⟩
      · rw [invSt]; simp only; rw [upd_ne _ _ hne]; exact a
      · rw [invSt]; simp only; rw [if_neg hne]; exact b
      · rw [invSt]; simp only
        rw [if_neg (by omega), upd_ne _ _ hne]; exact c h0

theorem invSt_vHalfedge (j v : ℕ) :
    ((invSt m x j).vHalfedge v = m.vHalfedge v ∧ ∀ i < j, m.heVertex (x (i + 1)) ≠ v) ∨
      ∃ i < j, (invSt m x j).vHalfedge v = x i ∧ m.heVertex (x (i + 1)) = v := by
  induction j with
  | zero => exact .inl ⟨rfl, fun i hi => absurd hi (by omega)⟩
  | succ j ih =>
    rw [invSt]
    simp only
    by_cases e : v = m.heVertex (x (j + 1))
    · subst e
      exact .inr ⟨j, by omega, by simp, rfl⟩
    · rw [upd_ne _ _ e]
      rcases ih with ⟨a, b⟩ | ⟨i, hi, a, b⟩
      · refine .inl ⟨a, fun i hi => ?_⟩
        by_cases e' : i = j
        · subst e'; exact Ne.symm e
        · exact b i (by omega)
      · exact .inr ⟨i, by omega, a, b⟩

/-- The loop computes `invSt`. -/
theorem invertLoop_ok {k : ℕ} (hx : ∀ i < k, m.heNext (x i) = x (i + 1)) (hk : x k = x 0)
    (hd : ∀ i i', i < i' → i' < k → x i ≠ x i') (n j : ℕ) (hj : j < k) (hn : k - j ≤ n) :
    invertLoop (x 0) (m.heVertex (x 0)) n (invSt m x j) (x j) (if j = 0 then none else some (x (j - 1))) =
      .ok (invSt m x k, x (k - 1)) := by
  induction n generalizing j with
  | zero => omega
  | succ n ih =>
    have un := invSt_untouched (m := m) (x := x) j (x j) (fun i hi => (hd i j hi hj).symm)
    unfold invertLoop
    have hnx : (invSt m x j).heNext (x j) = x (j + 1) := by rw [un.2.2, hx j hj]
    have hvert : (if x (j + 1) = x 0 then m.heVertex (x 0) else (invSt m x j).heVertex (x (j + 1))) =
        m.heVertex (x (j + 1)) := by
      split_ifs with h0
      · rw [h0]
      · have : j + 1 < k := by
          by_contra hc
          have : j + 1 = k := by omega
          rw [this] at h0; exact h0 hk
        exact (invSt_untouched (m := m) (x := x) j (x (j + 1)) (fun i hi => (hd i (j + 1) (by omega) this).symm)).1
    simp only [hnx, hvert]
    have hst : (invSt m x j).invertStep (x j) (m.heVertex (x (j + 1))) (if j = 0 then none else some (x (j - 1))) =
        invSt m x (j + 1) := by
      unfold invertStep
      rw [invSt, un.2.1]
      by_cases h0 : j = 0 <;> simp [h0]
    rw [hst]
    by_cases hl : j + 1 = k
    · rw [if_pos (by rw [hl, hk])]
      rw [hl, show k - 1 = j by omega]
    · rw [if_neg (fun h0 => hd 0 (j + 1) (by omega) (by omega) h0.symm)]
      have := ih (j + 1) (by omega) (by omega)
      simpa using this

end

/-- The part of C26 about the arrays: `m'` is `m` with face `f` reversed. -/
structure Reversed (m m' : GMesh) (f : ℕ) : Prop where
  vertex : ∀ h, m.heL h → m.heFace h = f → m'.heVertex h = m.tip h
  tip : ∀ h, m.heL h → m.heFace h = f → m'.tip h = m.heVertex h
  next : ∀ h, m.heL h → m.heFace h = f → m'.heNext (m.heNext h) = h
  orient : ∀ h, m.heL h → m.heFace h = f → m'.heOrient h = !m.heOrient h
  other : ∀ h, ¬ (m.heL h ∧ m.heFace h = f) →
    m'.heVertex h = m.heVertex h ∧ m'.heNext h = m.heNext h ∧ m'.heOrient h = m.heOrient h
  face : m'.heFace = m.heFace
  edge : m'.heEdge = m.heEdge
  sibling : m'.heSibling = m.heSibling
  fHe : m'.fHalfedge = m.fHalfedge
  eHe : m'.eHalfedge = m.eHalfedge
  vlive : ∀ v, m'.vL v ↔ m.vL v
  counts : m'.nHe = m.nHe ∧ m'.nInt = m.nInt ∧ m'.nHeFill = m.nHeFill ∧ m'.nHeCap = m.nHeCap ∧
    m'.nV = m.nV ∧ m'.nVFill = m.nVFill ∧ m'.nVCap = m.nVCap ∧ m'.nE = m.nE ∧ m'.nEFill = m.nEFill ∧
    m'.nECap = m.nECap ∧ m'.nF = m.nF ∧ m'.nFFill = m.nFFill ∧ m'.nFCap = m.nFCap

theorem Reversed.heL {m m' : GMesh} {f : ℕ} (hr : Reversed m m' f) (hv : m.Valid) (h : ℕ) : m'.heL h ↔ m.heL h := by
  unfold GMesh.heL
  rw [hr.counts.2.2.1]
  by_cases hh : m.heL h ∧ m.heFace h = f
  · obtain ⟨q, hq, e⟩ := hv.faces.pred (fKey_some.2 hh)
    have hq' := fKey_some.1 hq
    rw [← e, hr.next q hq'.1 hq'.2, e]
    have h1 := hh.1
    have h2 := hv.he_lt hq'.1
    exact ⟨fun _ => h1, fun _ => ⟨h1.1, by omega⟩⟩
  · rw [(hr.other h hh).2.1]

/-- The arrays after `invertOrientation`, and what remains to be known about the vertex lists. -/
theorem invert_core {m : GMesh} (hv : m.Valid) {f : ℕ} (hf : m.fL f) :
    ∃ m', m.invertOrientation f = .ok m' ∧ Reversed m m' f ∧ m'.Valid := by
  obtain ⟨l, hl, hnd, hmem, k, hkN, hlk, hhit⟩ := hv.faceHalfedges_ok hf
  obtain ⟨hf1, hf2⟩ := hv.f_he f hf
  -- the halfedges of the face in order
  generalize hxd : (fun j => m.heNext^[j] (m.fHalfedge f)) = x at hlk
  have hx0 : x 0 = m.fHalfedge f := by rw [← hxd]; rfl
  have hxs : ∀ i, m.heNext (x i) = x (i + 1) := fun i => by
    rw [← hxd]; exact (Function.iterate_succ_apply' m.heNext i _).symm
  have hxk : x (k + 1) = x 0 := by rw [hx0, ← hxd]; exact hhit
  have hxmem : ∀ i < k + 1, m.heL (x i) ∧ m.heFace (x i) = f := fun i hi =>
    (hmem _).1 (by rw [hlk]; exact List.mem_map.2 ⟨i, List.mem_range.2 hi, rfl⟩)
  have hxof : ∀ h, m.heL h → m.heFace h = f → ∃ i < k + 1, h = x i := fun h a b => by
    have := (hmem h).2 ⟨a, b⟩
    rw [hlk, List.mem_map] at this
    obtain ⟨i, hi, e⟩ := this
    exact ⟨i, List.mem_range.1 hi, e.symm⟩
  have hd : ∀ i i', i < i' → i' < k + 1 → x i ≠ x i' := by
    intro i i' h1 h2 e
    rw [hlk, List.Nodup, List.pairwise_map] at hnd
    have := List.pairwise_iff_getElem.1 hnd i i' (by simpa using by omega) (by simpa using h2) h1
    simp at this
    exact this e
  -- the state with the lists removed
  generalize hm1 : l.foldl removeFromVertexLists m = m1
  have hm1' := fold_removeLists m l
  rw [hm1] at hm1'
  have e1 : m1.heNext = m.heNext := by rw [hm1']
  have e2 : m1.heVertex = m.heVertex := by rw [hm1']
  have e3 : m1.heOrient = m.heOrient := by rw [hm1']
  have e4 : m1.fHalfedge = m.fHalfedge := by rw [hm1']
  have e5 : m1.nHeFill = m.nHeFill := by rw [hm1']
  have e6 : m1.vHalfedge = m.vHalfedge := by rw [hm1']
  have hloop := invertLoop_ok (m := m1) (x := x) (k := k + 1) (fun i _ => by rw [e1]; exact hxs i) hxk hd
    m.nHeFill 0 (by omega) (by omega)
  simp only [if_true] at hloop
  change invertLoop (x 0) (m1.heVertex (x 0)) m.nHeFill m1 (x 0) none = _ at hloop
  -- pointwise facts about the loop result
  have tv : ∀ i < k + 1, (invSt m1 x (k + 1)).heVertex (x i) = m.heVertex (x (i + 1)) := fun i hi => by
    rw [(invSt_touched hd (k + 1) le_rfl i hi).1, e2]
  have tor : ∀ i < k + 1, (invSt m1 x (k + 1)).heOrient (x i) = !m.heOrient (x i) := fun i hi => by
    rw [(invSt_touched hd (k + 1) le_rfl i hi).2.1, e3]
  have tn : ∀ i < k + 1, i ≠ 0 → (invSt m1 x (k + 1)).heNext (x i) = x (i - 1) := fun i hi h0 =>
    (invSt_touched hd (k + 1) le_rfl i hi).2.2 h0
  have un : ∀ h, ¬ (m.heL h ∧ m.heFace h = f) → (invSt m1 x (k + 1)).heVertex h = m.heVertex h ∧
      (invSt m1 x (k + 1)).heOrient h = m.heOrient h ∧ (invSt m1 x (k + 1)).heNext h = m.heNext h := fun h hh => by
    have := invSt_untouched (m := m1) (x := x) (k + 1) h (fun i hi e => hh (e ▸ hxmem i hi))
    rw [e1, e2, e3] at this
    exact this
  have vh := invSt_vHalfedge (m := m1) (x := x) (k + 1)
  rw [e2, e6] at vh
  have hrest := invSt_rest (m := m1) (x := x) (k + 1)
  generalize hm2 : invSt m1 x (k + 1) = m2 at hloop tv tor tn un vh hrest
  rw [hm1'] at hrest
  -- the final connectivity
  generalize hm3 : ({ m2 with heNext := upd m2.heNext (x 0) (x (k + 1 - 1)) } : GMesh) = m3
  have n0 : m3.heNext (x 0) = x k := by rw [← hm3]; simp
  have ni : ∀ i < k + 1, i ≠ 0 → m3.heNext (x i) = x (i - 1) := fun i hi h0 => by
    rw [← hm3]; simp only; rw [upd_ne _ _ (fun e => hd 0 i (by omega) hi e.symm)]; exact tn i hi h0
  have nn : ∀ i < k + 1, m3.heNext (x (i + 1)) = x i := fun i hi => by
    by_cases e : i = k
    · subst e; rw [hxk, n0]
    · rw [ni (i + 1) (by omega) (by omega)]; rfl
  have no : ∀ h, ¬ (m.heL h ∧ m.heFace h = f) → m3.heNext h = m.heNext h := fun h hh => by
    rw [← hm3]; simp only; rw [upd_ne _ _ (show h ≠ x 0 from fun e => hh (e ▸ hxmem 0 (by omega)))]; exact (un h hh).2.2
  have v3 : m3.heVertex = m2.heVertex := by rw [← hm3]
  have hR3 : Reversed m m3 f := by
    refine ⟨fun h a b => ?_, fun h a b => ?_, fun h a b => ?_, fun h a b => ?_, fun h hh => ?_, ?_, ?_, ?_, ?_, ?_, ?_, ?_⟩
    · obtain ⟨i, hi, rfl⟩ := hxof h a b
      rw [v3, tv i hi, GMesh.tip, hxs]
    · obtain ⟨i, hi, rfl⟩ := hxof h a b
      rw [GMesh.tip, v3]
      by_cases e : i = 0
      · subst e; rw [n0, tv k (by omega), hxk]
      · rw [ni i hi e, tv (i - 1) (by omega), show i - 1 + 1 = i by omega]
    · obtain ⟨i, hi, rfl⟩ := hxof h a b
      rw [hxs, nn i hi]
    · obtain ⟨i, hi, rfl⟩ := hxof h a b
      rw [← hm3]; exact tor i hi
    · exact ⟨by rw [v3]; exact (un h hh).1, no h hh, by rw [← hm3]; exact (un h hh).2.1⟩
    · rw [← hm3, hrest]
    · rw [← hm3, hrest]
    · rw [← hm3, hrest]
    · rw [← hm3, hrest]
    · rw [← hm3, hrest]
    · intro v
      have hfill : m3.nVFill = m.nVFill := by rw [← hm3, hrest]
      have hvh : m3.vHalfedge = m2.vHalfedge := by rw [← hm3]
      unfold vL
      rw [hfill, hvh]
      rcases vh v with ⟨a, -⟩ | ⟨i, hi, a, b⟩
      · rw [a]
      · have h1 := hv.he_lt (hxmem i hi).1
        have h2 : m.vL v := by
          rw [← b, ← hxs]; exact hv.vertex_live _ (hv.next_live _ (hxmem i hi).1)
        exact ⟨fun _ => h2, fun _ => ⟨h2.1, by rw [a]; omega⟩⟩
    · refine ⟨?_, ?_, ?_, ?_, ?_, ?_, ?_, ?_, ?_, ?_, ?_, ?_, ?_⟩ <;> rw [← hm3, hrest]
  -- cycles of the new `next`
  have hL3 := hR3.heL hv
  have hK : KeyOrb m3.heNext m3.fKey := by
    have h0 : KeyOrb m3.heNext m.fKey := by
      refine hv.faces.reverse (fun v => v = f) ?_ ?_
      · intro h v hA hs
        obtain ⟨a, b⟩ := fKey_some.1 hA
        exact hR3.next h a (b.trans hs)
      · intro h v hA hs
        obtain ⟨a, b⟩ := fKey_some.1 hA
        exact (hR3.other h (fun hh => hs (b.symm.trans hh.2))).2.1
    refine h0.cast ?_
    funext h
    unfold fKey
    rw [hR3.face]
    simp only [hL3]
  have hf3 : m3.fHalfedge = m.fHalfedge := hR3.fHe
  obtain ⟨l', hl', hnd', hmem', -⟩ := hK.iter (h := m3.fHalfedge f) (v := f) (N := m3.nHeFill)
    (fKey_some.2 ⟨(hL3 _).2 (by rw [hf3]; exact hf1), by rw [hR3.face, hf3]; exact hf2⟩)
    (fun z hz => (fKey_ne.1 hz).1)
  have hmem'' : ∀ z, z ∈ l' ↔ m.heL z ∧ m.heFace z = f := fun z => by
    rw [hmem' z, fKey_some, hL3, hR3.face]
  -- the call
  have hcall : m.invertOrientation f = .ok (l'.foldl addToVertexLists m3) := by
    unfold invertOrientation
    rw [hl]
    simp only [bind, Except.bind]
    rw [hm1, e4, e5, ← hx0]
    simp only [hloop]
    rw [hm3]
    unfold faceHalfedges
    simp only [hl']
  refine ⟨_, hcall, ?_, ?_⟩
  · rw [fold_addLists]
    exact ⟨hR3.vertex, hR3.tip, hR3.next, hR3.orient, hR3.other, hR3.face, hR3.edge, hR3.sibling, hR3.fHe, hR3.eHe,
      hR3.vlive, hR3.counts⟩
  · -- validity
    have hc := hR3.counts
    -- the vertex lists
    have hkey : ∀ k' : ℕ → ℕ, (fun h => if m.heL h then some (k' h) else none) =
        (fun h => if m.heL h then some (k' h) else none) := fun _ => rfl
    have r1 : m3.rin = l.foldl (fun R h => R.remove h (m.tip h)) m.rin := by rw [← hm3, hrest]
    have r2 : m3.rout = l.foldl (fun R h => R.remove h (m.heVertex h)) m.rout := by rw [← hm3, hrest]
    have i1 := Ring.fold_remove hv.in_ring m.tip l hnd (fun h hh => if_pos ((hmem h).1 hh).1)
    have i2 := Ring.fold_remove hv.out_ring m.heVertex l hnd (fun h hh => if_pos ((hmem h).1 hh).1)
    rw [← r1] at i1
    rw [← r2] at i2
    have hVeq : m.vL = m3.vL := by funext v; exact propext (hR3.vlive v).symm
    have hvl3 : ∀ h, m.heL h → m.vL (m3.heVertex h) := fun h a => by
      by_cases hh : m.heFace h = f
      · rw [hR3.vertex h a hh]; exact hv.vertex_live _ (hv.next_live h a)
      · rw [(hR3.other h (fun k => hh k.2)).1]; exact hv.vertex_live h a
    have hnl3 : ∀ h, m.heL h → m.heL (m3.heNext h) := fun h a => (hL3 _).1 ((iff_of_key hK).1 h ((hL3 h).2 a))
    have i1' := Ring.fold_add i1 m3.tip l' hnd' (fun h hh => by
      have h1 := (hmem'' h).1 hh
      have h2 := hv.he_lt h1.1
      exact ⟨if_pos ((hmem h).2 h1), by omega, hvl3 _ (hnl3 h h1.1)⟩)
    have i2' := Ring.fold_add i2 m3.heVertex l' hnd' (fun h hh => by
      have h1 := (hmem'' h).1 hh
      have h2 := hv.he_lt h1.1
      exact ⟨if_pos ((hmem h).2 h1), by omega, hvl3 _ h1.1⟩)
    have htip : ∀ h, m.heL h → m.heFace h ≠ f → m3.tip h = m.tip h := fun h a b => by
      rw [GMesh.tip, (hR3.other h (fun k => b k.2)).2.1,
        (hR3.other _ (fun k => b (by rw [← hv.face_next a]; exact k.2))).1, GMesh.tip]
    have hkeq : ∀ kn ko : ℕ → ℕ, (∀ h, m.heL h → m.heFace h ≠ f → kn h = ko h) →
        (fun h => if h ∈ l' then some (kn h) else if h ∈ l then none else if m.heL h then some (ko h) else none) =
        (fun h => if m3.heL h then some (kn h) else none) := by
      intro kn ko hko
      funext h
      by_cases a : m.heL h
      · rw [if_pos ((hL3 h).2 a)]
        by_cases b : m.heFace h = f
        · rw [if_pos ((hmem'' h).2 ⟨a, b⟩)]
        · rw [if_neg (fun k => b ((hmem'' h).1 k).2), if_neg (fun k => b ((hmem h).1 k).2), if_pos a, hko h a b]
      · rw [if_neg (fun k => a ((hmem'' h).1 k).1), if_neg (fun k => a ((hmem h).1 k).1), if_neg a,
          if_neg (fun k => a ((hL3 h).1 k))]
    have j1 := i1'.cast (hkeq m3.tip m.tip htip) hVeq
    have j2 := i2'.cast (hkeq m3.heVertex m.heVertex (fun h a b => (hR3.other h (fun k => b k.2)).1)) hVeq
    have hfs := iff_of_key hK
    have hEK : KeyOrb m3.heSibling m3.eKey := by
      rw [hR3.sibling]
      refine hv.edges.cast ?_
      funext h
      unfold eKey
      rw [hR3.edge]
      simp only [hL3]
    have hes := iff_of_key hEK
    rw [fold_addLists]
    obtain ⟨c1, c2, c3, c4, c5, c6, c7, c8, c9, c10, c11, c12, c13⟩ := hc
    refine ⟨?_, ?_, ?_, ?_, hfs.1, hes.1, ?_, ?_, ?_, hfs.2, hes.2, ?_, ?_, ?_, ?_, j1, j2, ?_, ?_, ?_, ?_⟩
    · simp only [c3, c4]; exact hv.he_cap
    · simp only [c6, c7]; exact hv.v_cap
    · simp only [c9, c10]; exact hv.e_cap
    · simp only [c12, c13]; exact hv.f_cap
    · intro i hi
      exact (hR3.vlive _).2 (hvl3 i ((hL3 i).1 hi))
    · intro i hi
      have := hv.face_live i ((hL3 i).1 hi)
      unfold fL at this ⊢
      simp only [hR3.face, hf3, c12]; exact this
    · intro i hi
      have := hv.edge_live i ((hL3 i).1 hi)
      unfold eL at this ⊢
      simp only [hR3.edge, hR3.eHe, c9]; exact this
    · intro v hvl
      have hvl' := (hR3.vlive v).1 hvl
      have hvh : m3.vHalfedge = m2.vHalfedge := by rw [← hm3]
      show m3.heL (m3.vHalfedge v) ∧ m3.heVertex (m3.vHalfedge v) = v
      rw [hL3, hvh]
      rcases vh v with ⟨a, b⟩ | ⟨i, hi, a, b⟩
      · rw [a]
        obtain ⟨p, q⟩ := hv.v_he v hvl'
        refine ⟨p, ?_⟩
        by_cases hh : m.heFace (m.vHalfedge v) = f
        · exfalso
          obtain ⟨i, hi, e⟩ := hxof _ p hh
          by_cases h0 : i = 0
          · subst h0
            exact b k (by omega) (by rw [hxk, ← e]; exact q)
          · exact b (i - 1) (by omega) (by rw [show i - 1 + 1 = i by omega, ← e]; exact q)
        · rw [(hR3.other _ (fun k => hh k.2)).1]; exact q
      · rw [a]
        exact ⟨(hxmem i hi).1, by rw [v3, tv i hi]; exact b⟩
    · intro g hg
      have hg' : m.fL g := by
        unfold fL at hg ⊢; simp only [hf3, c12] at hg; exact hg
      obtain ⟨p, q⟩ := hv.f_he g hg'
      show m3.heL (m3.fHalfedge g) ∧ m3.heFace (m3.fHalfedge g) = g
      rw [hL3, hf3, hR3.face]; exact ⟨p, q⟩
    · intro g hg
      have hg' : m.eL g := by
        unfold eL at hg ⊢; simp only [hR3.eHe, c9] at hg; exact hg
      obtain ⟨p, q⟩ := hv.e_he g hg'
      show m3.heL (m3.eHalfedge g) ∧ m3.heEdge (m3.eHalfedge g) = g
      rw [hL3, hR3.eHe, hR3.edge]; exact ⟨p, q⟩
    · intro i j hi hj he
      have hi' := (hL3 i).1 hi
      have hj' := (hL3 j).1 hj
      have ho := hv.orient i j hi' hj' (by simpa only [hR3.edge] using he)
      show m3.aligned i j
      -- each halfedge is either as before or with everything swapped
      have alt : ∀ h, m.heL h → (m3.heVertex h = m.heVertex h ∧ m3.tip h = m.tip h ∧ m3.heOrient h = m.heOrient h) ∨
          (m3.heVertex h = m.tip h ∧ m3.tip h = m.heVertex h ∧ m3.heOrient h = !m.heOrient h) := by
        intro h a
        by_cases b : m.heFace h = f
        · exact .inr ⟨hR3.vertex h a b, hR3.tip h a b, hR3.orient h a b⟩
        · exact .inl ⟨(hR3.other h (fun k => b k.2)).1, htip h a b, (hR3.other h (fun k => b k.2)).2.2⟩
      unfold aligned at ho ⊢
      rcases alt i hi' with ⟨a1, a2, a3⟩ | ⟨a1, a2, a3⟩ <;> rcases alt j hj' with ⟨b1, b2, b3⟩ | ⟨b1, b2, b3⟩ <;>
        rw [a1, a2, a3, b1, b2, b3] <;> cases hA : m.heOrient i <;> cases hB : m.heOrient j <;>
        simp [hA, hB] at ho ⊢ <;> tauto
    · simp only [c1, c3]
      rw [hv.cnt_he]
      refine count_congr (fun i hi => ?_)
      have := hL3 i
      unfold GMesh.heL at this
      rw [c3] at this
      have := this
      tauto
    · simp only [c8, c9, hR3.eHe]; exact hv.cnt_e
    · simp only [c5, c6]
      rw [hv.cnt_v]
      refine count_congr (fun i hi => ?_)
      have := hR3.vlive i
      unfold vL at this
      rw [c6] at this
      tauto
    · simp only [c11, c12, hf3]; exact hv.cnt_f

/-- **C26.**  `invertOrientation(f)` succeeds on every face of a valid general mesh and leaves a valid
mesh.  Every halfedge of `f` runs the other way (tail and tip exchanged, orientation bit flipped,
successor become predecessor) on the same edge and face; nothing else changes but `v.halfedge()` of
vertices of `f` and the order within the vertex lists. -/
theorem C26 {m : GMesh} (hv : m.Valid) {f : ℕ} (hf : m.fL f) :
    ∃ m', m.invertOrientation f = .ok m' ∧ Reversed m m' f ∧ m'.Valid := invert_core hv hf

/-- **C26, vertex order.**  The vertices around the face, read from its first halfedge, are those from
before in reverse cyclic order. -/
theorem C26_order {m m' : GMesh} (hv : m.Valid) {f : ℕ} (hf : m.fL f) (hi : m.invertOrientation f = .ok m') :
    ∃ l l', m.faceHalfedges f = .ok l ∧ m'.faceHalfedges f = .ok l' ∧
      (l'.map m'.heVertex).IsRotated (l.map m.heVertex).reverse := by
  obtain ⟨m1, h1, hr, hv'⟩ := C26 hv hf
  rw [hi] at h1
  cases h1
  obtain ⟨l, hl, hnd, hmem, k, hkN, hlk, hhit⟩ := hv.faceHalfedges_ok hf
  have hf' : m'.fL f := by
    unfold fL at hf ⊢
    rw [hr.fHe, hr.counts.2.2.2.2.2.2.2.2.2.2.2.1]; exact hf
  obtain ⟨l', hl', hnd', hmem', k', -, hlk', -⟩ := hv'.faceHalfedges_ok hf'
  refine ⟨l, l', hl, hl', ?_⟩
  -- same length
  have hperm : l'.Perm l := (List.perm_ext_iff_of_nodup hnd' hnd).2 (fun z => by
    rw [hmem', hmem, hr.heL hv, hr.face])
  have hkk : k' = k := by
    have := hperm.length_eq
    rw [hlk, hlk'] at this
    simp at this
    exact this
  subst hkk
  generalize hxd : (fun j => m.heNext^[j] (m.fHalfedge f)) = x at hlk
  have hx0 : x 0 = m.fHalfedge f := by rw [← hxd]; rfl
  have hxs : ∀ i, m.heNext (x i) = x (i + 1) := fun i => by
    rw [← hxd]; exact (Function.iterate_succ_apply' m.heNext i _).symm
  have hxp : ∀ i, x (i + (k' + 1)) = x i := fun i => by
    rw [← hxd]
    simp only
    rw [Function.iterate_add_apply, hhit]
  have hxmem : ∀ i, m.heL (x i) ∧ m.heFace (x i) = f := by
    intro i
    induction i with
    | zero => rw [hx0]; exact hv.f_he f hf
    | succ i ih => rw [← hxs]; exact ⟨hv.next_live _ ih.1, by rw [hv.face_next ih.1]; exact ih.2⟩
  have hback : ∀ i, m'.heNext (x (i + 1)) = x i := fun i => by
    rw [← hxs]; exact hr.next _ (hxmem i).1 (hxmem i).2
  -- the new order
  have hnew : ∀ j ≤ k' + 1, m'.heNext^[j] (m'.fHalfedge f) = x (k' + 1 - j) := by
    intro j
    induction j with
    | zero =>
      intro _
      have := hxp 0
      rw [Nat.zero_add] at this
      rw [Nat.sub_zero, this, hx0, hr.fHe]; rfl
    | succ j ih =>
      intro hj
      rw [Function.iterate_succ_apply', ih (by omega), show k' + 1 - j = (k' + 1 - (j + 1)) + 1 by omega, hback]
  have hper : ∀ a b, a % (k' + 1) = b % (k' + 1) → m.heVertex (x a) = m.heVertex (x b) := by
    have hmod : ∀ q a, x (a + (k' + 1) * q) = x a := by
      intro q
      induction q with
      | zero => intro a; rfl
      | succ q ih => intro a; rw [Nat.mul_succ, ← Nat.add_assoc, hxp, ih]
    intro a b e
    rw [← Nat.mod_add_div a (k' + 1), ← Nat.mod_add_div b (k' + 1), hmod, hmod, e]
  refine List.IsRotated.symm ⟨2 * k', ?_⟩
  rw [hlk, hlk']
  refine List.ext_getElem (by simp) (fun j h1 h2 => ?_)
  have hj : j < k' + 1 := by simpa using h2
  rw [List.getElem_rotate, List.getElem_reverse]
  simp only [List.getElem_map, List.getElem_range, List.length_map, List.length_range, List.length_reverse]
  rw [hnew j (by omega), hr.vertex _ (hxmem _).1 (hxmem _).2, tip, hxs]
  refine hper _ _ ?_
  -- `k' - (j + 2k') % (k' + 1)` and `k' + 2 - j` agree modulo `k' + 1`
  have hle := Nat.mod_lt (j + 2 * k') (show 0 < k' + 1 by omega)
  have hdm := Nat.mod_add_div (j + 2 * k') (k' + 1)
  have e : k' + 1 - (1 + (j + 2 * k') % (k' + 1)) + (k' + 1) * 2 =
      (k' + 1 - j + 1) + (k' + 1) * ((j + 2 * k') / (k' + 1)) := by
    generalize (k' + 1) * ((j + 2 * k') / (k' + 1)) = q at hdm ⊢
    generalize (j + 2 * k') % (k' + 1) = r at hdm hle ⊢
    omega
  have e' := congrArg (· % (k' + 1)) e
  simp only [Nat.add_mul_mod_self_left] at e'
  rw [← e']
  congr 1
  omega

/-- **C26, twice.**  Applying it twice restores the connectivity. -/
theorem C26_twice {m m' m'' : GMesh} (hv : m.Valid) {f : ℕ} (hf : m.fL f) (h1 : m.invertOrientation f = .ok m')
    (h2 : m'.invertOrientation f = .ok m'') :
    m''.heNext = m.heNext ∧ m''.heVertex = m.heVertex ∧ m''.heOrient = m.heOrient ∧ m''.heFace = m.heFace ∧
      m''.heEdge = m.heEdge ∧ m''.heSibling = m.heSibling ∧ m''.fHalfedge = m.fHalfedge ∧
      m''.eHalfedge = m.eHalfedge := by
  obtain ⟨m1, e1, hr, hv'⟩ := C26 hv hf
  rw [h1] at e1
  cases e1
  have hf' : m'.fL f := by
    unfold fL at hf ⊢
    rw [hr.fHe, hr.counts.2.2.2.2.2.2.2.2.2.2.2.1]; exact hf
  obtain ⟨m2, e2, hr', -⟩ := C26 hv' hf'
  rw [h2] at e2
  cases e2
  have hin : ∀ h, (m'.heL h ∧ m'.heFace h = f) ↔ (m.heL h ∧ m.heFace h = f) := fun h => by
    rw [hr.heL hv, hr.face]
  refine ⟨?_, ?_, ?_, by rw [hr'.face, hr.face], by rw [hr'.edge, hr.edge], by rw [hr'.sibling, hr.sibling],
    by rw [hr'.fHe, hr.fHe], by rw [hr'.eHe, hr.eHe]⟩
  · funext h
    by_cases hh : m.heL h ∧ m.heFace h = f
    · have hz := (hin (m.heNext h)).2 ⟨hv.next_live h hh.1, by rw [hv.face_next hh.1]; exact hh.2⟩
      have := hr'.next (m.heNext h) hz.1 hz.2
      rw [hr.next h hh.1 hh.2] at this
      exact this
    · rw [(hr'.other h (fun k => hh ((hin h).1 k))).2.1, (hr.other h hh).2.1]
  · funext h
    by_cases hh : m.heL h ∧ m.heFace h = f
    · have hz := (hin h).2 hh
      rw [hr'.vertex h hz.1 hz.2, hr.tip h hh.1 hh.2]
    · rw [(hr'.other h (fun k => hh ((hin h).1 k))).1, (hr.other h hh).1]
  · funext h
    by_cases hh : m.heL h ∧ m.heFace h = f
    · have hz := (hin h).2 hh
      rw [hr'.orient h hz.1 hz.2, hr.orient h hh.1 hh.2, Bool.not_not]
    · rw [(hr'.other h (fun k => hh ((hin h).1 k))).2.2, (hr.other h hh).2.2]

/-- The three triangles of `book` share an edge; the second one can be inverted, twice. -/
example : ∃ m m' m'', fromPolygons book bookOrder = .ok m ∧ m.Valid ∧ m.fL 1 ∧
    m.invertOrientation 1 = .ok m' ∧ m'.invertOrientation 1 = .ok m'' ∧ m''.heVertex = m.heVertex := by
  obtain ⟨m, e, hb⟩ := book_built
  have hf : m.fL 1 := (hb.fL 1).2 (by decide)
  obtain ⟨m', e', hr, hv'⟩ := C26 hb.valid hf
  have hf' : m'.fL 1 := by
    unfold fL at hf ⊢
    rw [hr.fHe, hr.counts.2.2.2.2.2.2.2.2.2.2.2.1]; exact hf
  obtain ⟨m'', e'', -, -⟩ := C26 hv' hf'
  exact ⟨m, m', m'', e, hb.valid, hf, e', e'', (C26_twice hb.valid hf e' e'').2.1⟩

end GC.GMesh
