import Verif.Props.NormalCoords

/-!
# C58, C59: following curves through normal coordinates, splitting an edge
-/

namespace GC.NC

/-! ### C58: following a curve -/

section trace

variable {m : Mesh} {n : ℕ → ℤ}

/-- The three sides of the triangle of halfedge `h` carry consistent coordinates, with at most one
arc along a side. -/
structure Tri (m : Mesh) (n : ℕ → ℤ) (h : ℕ) : Prop where
  three : m.heNext (m.heNext (m.heNext h)) = h
  cons : Consistent (co n h) (co n (m.heNext h)) (co n (m.heNext (m.heNext h)))
  small : ∀ g, Small (2 ^ 28) (co n g) ∧ -1 ≤ co n g

theorem Tri.next {h : ℕ} (t : Tri m n h) : Tri m n (m.heNext h) := by
  refine ⟨by rw [t.three], ?_, t.small⟩
  obtain ⟨T, f, -⟩ := (C32_consistent _ _ _).1 t.cons
  rw [t.three]
  exact f.rot.consistent

/-- One step, in terms of the arcs of the triangle that is entered through `h`. -/
theorem step_eq {h : ℕ} (t : Tri m n h) {T : Arcs}
    (f : Fits T (co n h) (co n (m.heNext h)) (co n (m.heNext (m.heNext h)))) {index : ℤ}
    (h0 : 0 ≤ index) (h1 : index < pos (co n h)) :
    step m n (twin h) index = .ok (
      if index < T.cj then some (m.heNext h, index)
      else if pos (co n h) - T.ci ≤ index then
        some (m.heNext (m.heNext h), pos (co n (m.heNext (m.heNext h))) + index - pos (co n h))
      else none) := by
  have s0 := t.small h
  have s1 := t.small (m.heNext h)
  have s2 := t.small (m.heNext (m.heNext h))
  have k1 : cornerAt m n (m.heNext h) = .ok T.cj := by
    unfold cornerAt; rw [t.three]; exact C32_corner f.rot.rot s2.1 s0.1 s1.1 s2.2
  have k2 : cornerAt m n h = .ok T.ci := C32_corner f.rot s1.1 s2.1 s0.1 s1.2
  have e1 := f.ij; have e2 := f.jk; have e3 := f.ki
  unfold step
  unfold Small at s0 s1 s2
  have b1 : (T.ci : ℤ) ≤ 2 ^ 28 := by clear * - e1 s0; omega
  have b2 : (T.cj : ℤ) ≤ 2 ^ 28 := by clear * - e1 s0; omega
  simp only [twin_twin, k1, k2, bind, Except.bind]
  rw [toInt_ok (by omega), toInt_ok (by omega)]
  split
  · rfl
  split
  · unfold ints pos
    unfold pos at h1
    rw [if_pos]
    intro x hx
    simp only [List.mem_cons, List.not_mem_nil, or_false] at hx
    unfold inInt
    clear * - hx h0 h1 s0 s2
    omega
  · rfl

/-- **C58, steps.**  A curve that enters a triangle through crossing number `index` of a side stays in
range: it ends in the opposite vertex or leaves through a crossing of another side; entering there
in the opposite direction leads back. -/
theorem C58_step {h : ℕ} (t : Tri m n h) {index : ℤ} (h0 : 0 ≤ index) (h1 : index < pos (co n h)) :
    step m n (twin h) index = .ok none ∨
    ∃ g i, step m n (twin h) index = .ok (some (g, i)) ∧ (g = m.heNext h ∨ g = m.heNext (m.heNext h)) ∧
      0 ≤ i ∧ i < pos (co n g) ∧
      step m n (twin g) (pos (co n g) - 1 - i) = .ok (some (h, pos (co n h) - 1 - index)) := by
  obtain ⟨T, f, -⟩ := (C32_consistent _ _ _).1 t.cons
  have e1 := f.ij; have e2 := f.jk; have e3 := f.ki
  have c := fits_one T
  have g1 : T.rot.cj = T.ck := rfl
  have g2 : T.rot.ci = T.cj := rfl
  have g3 : T.rot.rot.cj = T.ci := rfl
  rw [step_eq t f h0 h1]
  have f1 : Fits T.rot (co n (m.heNext h)) (co n (m.heNext (m.heNext h)))
      (co n (m.heNext (m.heNext (m.heNext h)))) := by rw [t.three]; exact f.rot
  have f2 : Fits T.rot.rot (co n (m.heNext (m.heNext h))) (co n (m.heNext (m.heNext (m.heNext h))))
      (co n (m.heNext (m.heNext (m.heNext (m.heNext h))))) := by rw [t.three]; exact f.rot.rot
  split
  · rename_i k
    have r : index < pos (co n (m.heNext h)) := by unfold pos; rw [e2]; clear * - k; omega
    right
    refine ⟨_, _, rfl, .inl rfl, h0, r, ?_⟩
    rw [step_eq t.next f1 (by clear * - r; omega) (by clear * - h0; omega), t.three]
    unfold pos at *
    rw [e1, e2]
    rw [e2] at r
    rw [if_neg (by clear * - k c g1; omega), if_pos (by clear * - k g2; omega)]
    exact congrArg (fun z => Except.ok (some (h, z))) (by clear * -; omega)
  split
  · rename_i k1 k2
    have r0 : 0 ≤ pos (co n (m.heNext (m.heNext h))) + index - pos (co n h) := by
      unfold pos at *; rw [e1] at k2; rw [e1, e3]; clear * - k2; omega
    right
    refine ⟨_, _, rfl, .inr rfl, r0, by clear * - h1; omega, ?_⟩
    rw [step_eq t.next.next f2 (by clear * - h1; omega) (by clear * - r0; omega), t.three]
    unfold pos at *
    rw [e1, e3]
    rw [e1] at k2 h1
    rw [if_pos (by clear * - k2 g3; omega)]
    exact congrArg (fun z => Except.ok (some (h, z))) (by clear * -; omega)
  · exact .inl rfl

/-- **C58, ends.**  The curves numbered from `0` that leave a corner start with a crossing of the
opposite side from which they lead back into the corner; and every curve that ends in the vertex
opposite to `h` is one of them. -/
theorem C58_corner {h : ℕ} (t : Tri m n h) :
    (∀ k : ℕ, ∀ d, degreeAt m n h = .ok d → k < d →
      ∃ i, fromCorner m n h k = .ok (m.heNext h, i) ∧ 0 ≤ i ∧ i < pos (co n (m.heNext h)) ∧
        step m n (twin (m.heNext h)) (pos (co n (m.heNext h)) - 1 - i) = .ok none) ∧
    ∀ index, 0 ≤ index → index < pos (co n h) → step m n (twin h) index = .ok none →
      ∃ k d : ℕ, degreeAt m n (m.heNext (m.heNext h)) = .ok d ∧ k < d ∧
        fromCorner m n (m.heNext (m.heNext h)) k = .ok (h, pos (co n h) - 1 - index) := by
  obtain ⟨T, f, -⟩ := (C32_consistent _ _ _).1 t.cons
  have e1 := f.ij; have e2 := f.jk; have e3 := f.ki
  have c := fits_one T
  have g1 : T.rot.cj = T.ck := rfl
  have g2 : T.rot.ci = T.cj := rfl
  have g3 : T.rot.rot.cj = T.ci := rfl
  have s0 := t.small h
  have s1 := t.small (m.heNext h)
  have s2 := t.small (m.heNext (m.heNext h))
  have hw : ∀ x, Small (2 ^ 28) x → Small (2 ^ 29) x := fun x hx => by unfold Small at *; omega
  have f1 : Fits T.rot (co n (m.heNext h)) (co n (m.heNext (m.heNext h)))
      (co n (m.heNext (m.heNext (m.heNext h)))) := by rw [t.three]; exact f.rot
  have d1 : degreeAt m n h = .ok T.ei := C32_degree f.rot (hw _ s1.1) (hw _ s2.1) (hw _ s0.1)
  have d2 : degreeAt m n (m.heNext (m.heNext h)) = .ok T.ek := by
    unfold degreeAt; rw [t.three]; exact C32_degree f (hw _ s0.1) (hw _ s1.1) (hw _ s2.1)
  unfold Small at s0 s1 s2
  constructor
  · intro k d hd hk
    rw [d1] at hd
    cases hd
    refine ⟨k + pos (co n h), ?_, ?_, ?_, ?_⟩
    · unfold fromCorner
      rw [d1]
      simp only [bind, Except.bind]
      rw [if_neg (by omega)]
      unfold ints
      rw [if_pos]
      intro x hx
      simp only [List.mem_cons, List.not_mem_nil, or_false] at hx
      subst hx
      unfold inInt pos
      clear * - e2 s1 s0 hk
      omega
    · unfold pos; clear * -; omega
    · unfold pos; rw [e1, e2]; clear * - c hk; omega
    · rw [step_eq t.next f1 (by unfold pos; rw [e1, e2]; clear * - c hk; omega)
        (by unfold pos; clear * -; omega)]
      unfold pos
      rw [e1, e2]
      rw [if_neg (by clear * - c hk g1; omega), if_neg (by clear * - c hk g2; omega)]
  · intro index h0 h1 hs
    rw [step_eq t f h0 h1] at hs
    split at hs
    · cases hs
    split at hs
    · cases hs
    rename_i k1 k2
    unfold pos at h1 k2
    rw [e1] at h1 k2
    refine ⟨(T.cj + T.ek - 1 - index).toNat, T.ek, d2, by clear * - k1 k2 h0; omega, ?_⟩
    unfold fromCorner
    rw [d2]
    simp only [bind, Except.bind]
    rw [if_neg (by clear * - k1 k2; omega), t.three]
    unfold ints pos
    rw [e1, e3]
    have hk : (((T.cj : ℤ) + T.ek - 1 - index).toNat : ℤ) + (T.ck + T.ci + T.ej) = T.ci + T.cj + T.ek - 1 - index := by
      clear * - c k1 k2; omega
    rw [if_pos, hk]
    intro x hx
    simp only [List.mem_cons, List.not_mem_nil, or_false] at hx
    subst hx
    unfold inInt
    rw [hk]
    clear * - h0 h1 e1 s0
    omega

end trace

/-- In face `0` of the tetrahedron (edges `0`, `1`, `2` with coordinates `5`, `1`, `2`) one arc clips
off the corner between edges `0` and `1`, two clip off the corner between edges `0` and `2`, and two
leave the third corner. -/
example : Tri Mesh.tetra (fun e => if e = 0 then 5 else if e = 1 then 1 else 2) 0 ∧
    step Mesh.tetra (fun e => if e = 0 then 5 else if e = 1 then 1 else 2) (twin 0) 0 = .ok (some (2, 0)) ∧
    step Mesh.tetra (fun e => if e = 0 then 5 else if e = 1 then 1 else 2) (twin 0) 1 = .ok none ∧
    step Mesh.tetra (fun e => if e = 0 then 5 else if e = 1 then 1 else 2) (twin 0) 4 = .ok (some (4, 1)) ∧
    fromCorner Mesh.tetra (fun e => if e = 0 then 5 else if e = 1 then 1 else 2) 4 1 = .ok (0, 3) := by
  refine ⟨⟨by decide +kernel, ?_, ?_⟩, by decide +kernel, by decide +kernel, by decide +kernel,
    by decide +kernel⟩
  · rw [show Mesh.tetra.heNext 0 = 2 by decide +kernel, show Mesh.tetra.heNext 2 = 4 by decide +kernel]
    unfold Consistent co
    decide +kernel
  · intro g
    unfold co Small
    by_cases h0 : Mesh.heEdge g = 0
    · simp only [h0, if_true]; decide
    by_cases h1 : Mesh.heEdge g = 1
    · simp only [h1, if_true, if_neg (show ¬ (1 : ℕ) = 0 by decide)]; decide
    · simp only [h0, h1, if_false]; decide

/-! ### C59: splitting an edge -/

/-- The crossings of the new edge from the split point of `ij` (after `ni` crossings) to `k`: the
arcs through `ij` that pass the split point on one side and `k` on the other, and the arcs that
separate `ij` from `k`. -/
def splitArcs (T : Arcs) (ni : ℕ) : ℕ :=
  (List.range (T.ci + T.cj + T.ek)).countP
    (fun p => (decide (p < ni) && T.exit p == .east) || (!decide (p < ni) && T.exit p == .west)) +
    T.ck + T.ei + T.ej

theorem splitArcs_eq (T : Arcs) (ni : ℕ) :
    splitArcs T ni = (min ni (T.ci + T.cj + T.ek) - (T.ci + T.ek)) + (T.ci - ni) + T.ck + T.ei + T.ej := by
  have key : ∀ n, (List.range n).countP
      (fun p => (decide (p < ni) && T.exit p == .east) || (!decide (p < ni) && T.exit p == .west)) =
      (min ni n - (T.ci + T.ek)) + (min T.ci n - ni) := by
    intro n
    induction n with
    | zero => simp
    | succ n ih =>
      rw [List.range_succ, List.countP_append, ih, List.countP_singleton]
      rcases exit_cases T n with ⟨a, a'⟩ | ⟨a, a'⟩ | ⟨a, a'⟩ <;> rw [a] <;> by_cases b : n < ni <;>
        simp only [b, decide_true, decide_false]
      all_goals
        first
          | rw [if_pos (by rfl)]; omega
          | rw [if_neg (by decide)]; omega
  unfold splitArcs
  rw [key]
  omega

theorem posSize_ok {x : ℕ} (h : x < 2 ^ 53) : posSize x = .ok x := by
  unfold posSize toDouble
  rw [if_pos h, if_pos (by omega)]

/-- A negative difference becomes a `size_t` that is rounded to `2^64`. -/
theorem posSize_wrap {d : ℕ} (h0 : 0 < d) (h1 : d ≤ 1024) : posSize (2 ^ 64 - d) = .error .ub := by
  unfold posSize
  have hl : Nat.log2 (2 ^ 64 - d) = 63 := by
    rw [Nat.log2_eq_iff (by omega)]
    omega
  have : toDouble (2 ^ 64 - d) = 2 ^ 64 := by
    unfold toDouble
    rw [if_neg (by omega), hl]
    have e1 : (2 ^ 64 - d) / 2 ^ (63 - 52) = 2 ^ 53 - 1 := by omega
    have e2 : (2 ^ 64 - d) % 2 ^ (63 - 52) = 2 ^ 11 - d := by omega
    simp only [e1, e2]
    rw [if_neg (by omega)]
    split
    · rfl
    · rw [if_neg (by decide)]; rfl
  rw [this, if_neg (by omega)]

theorem beyond_ok {c : ℕ} {n : ℤ} (hc : c ≤ 2 ^ 28) (h0 : 0 ≤ n) (h : n ≤ c) :
    beyond c n = .ok (c - n.toNat) := by
  unfold beyond pos
  rw [toSize_ok (by omega) (by omega), posSize_ok (by omega)]
  congr 1; omega

theorem beyond_wrap {c : ℕ} {n : ℤ} (h : (c : ℤ) < n) (hn : n ≤ 1024) : beyond c n = .error .ub := by
  unfold beyond pos
  rw [show toSize ((c : ℤ) - max n 0) = 2 ^ 64 - (n.toNat - c) by unfold toSize; omega]
  exact posSize_wrap (by omega) (by omega)

/-- The crossings of one of the two new edges: right if all arcs through the split edge clip off its
ends and the split point separates them; undefined behaviour otherwise. -/
theorem splitCount_eq {T : Arcs} {nij njk nki : ℤ} (f : Fits T nij njk nki)
    (h1 : Small (2 ^ 26) nij ∧ -1 ≤ nij) (h2 : Small (2 ^ 26) njk ∧ -1 ≤ njk) (h3 : Small (2 ^ 26) nki ∧ -1 ≤ nki)
    (hb : nij ≤ 1024) {ni nj : ℕ} (hn : (ni : ℤ) + nj = max nij 0) :
    splitCount nij njk nki nj ni =
      if ni = T.ci ∧ nj = T.cj then .ok (splitArcs T ni : ℤ) else .error .ub := by
  have w8 : ∀ x, Small (2 ^ 26) x → Small (2 ^ 28) x := fun x hx => by unfold Small at *; omega
  have w9 : ∀ x, Small (2 ^ 26) x → Small (2 ^ 29) x := fun x hx => by unfold Small at *; omega
  have a1 : strictCornerCoord nki nij njk = .ok T.cj :=
    C32_corner f.rot.rot (w8 _ h3.1) (w8 _ h1.1) (w8 _ h2.1) h3.2
  have a2 : strictCornerCoord njk nki nij = .ok T.ci :=
    C32_corner f.rot (w8 _ h2.1) (w8 _ h3.1) (w8 _ h1.1) h2.2
  have a3 : strictCornerCoord nij njk nki = .ok T.ck := C32_corner f (w8 _ h1.1) (w8 _ h2.1) (w8 _ h3.1) h1.2
  have a4 : strictDegree njk nki nij = .ok T.ei := C32_degree f.rot (w9 _ h2.1) (w9 _ h3.1) (w9 _ h1.1)
  have a5 : strictDegree nki nij njk = .ok T.ej := C32_degree f.rot.rot (w9 _ h3.1) (w9 _ h1.1) (w9 _ h2.1)
  have e1 := f.ij; have e2 := f.jk; have e3 := f.ki
  unfold Small at h1 h2 h3
  have b1 : T.ci + T.cj + T.ek ≤ 2 ^ 26 := by clear * - e1 h1; omega
  have b2 : T.ck + T.ei ≤ 2 ^ 26 := by clear * - e2 h2; omega
  have b3 : T.ej ≤ 2 ^ 26 := by clear * - e3 h3; omega
  have b4 : ni + nj = T.ci + T.cj + T.ek := by clear * - hn e1; omega
  have b5 : nj ≤ 1024 ∧ ni ≤ 1024 := by clear * - hn hb; omega
  unfold splitCount
  rw [a1, a2, a3, a4, a5]
  simp only [bind, Except.bind, pure, Except.pure]
  by_cases k1 : T.cj < nj
  · rw [beyond_wrap (by omega) (by omega), if_neg (by omega)]
  rw [beyond_ok (by omega) (by omega) (by omega)]
  simp only
  by_cases k2 : T.ci < ni
  · rw [beyond_wrap (by omega) (by omega), if_neg (by omega)]
  rw [beyond_ok (by omega) (by omega) (by omega), if_pos (by omega), splitArcs_eq]
  simp only
  have b6 : T.cj - (nj : ℤ).toNat = 0 ∧ T.ci - (ni : ℤ).toNat = 0 := by omega
  rw [b6.1, b6.2, toSize_ok (by omega) (by omega), toInt_ok (by omega)]
  congr 1
  omega

/-- **C59.**  `computeInteriorEdgeSplitDataCombinatorial` on consistent coordinates with at most one arc
along each side and at most 1024 arcs across the split edge, which is split after crossing number
`iSeg`.  If nothing crosses the edge, or if the split point separates the arcs around one end from the
arcs around the other in both triangles, then the results are the crossings of the four new edges.  In
every other case a negative number is computed in `size_t` and converting it through `double` is
undefined behaviour (`C59_fails` is an example). -/
theorem C59_partial {T B : Arcs} {nij njk nki nil nlj : ℤ} {iSeg : ℕ}
    (fT : Fits T nij njk nki) (fB : Fits B nij nlj nil)
    (h1 : Small (2 ^ 26) nij ∧ -1 ≤ nij) (h2 : Small (2 ^ 26) njk ∧ -1 ≤ njk) (h3 : Small (2 ^ 26) nki ∧ -1 ≤ nki)
    (h4 : Small (2 ^ 26) nil ∧ -1 ≤ nil) (h5 : Small (2 ^ 26) nlj ∧ -1 ≤ nlj)
    (hb : nij ≤ 1024) (hs : (iSeg : ℤ) ≤ max nij 0) :
    edgeSplitData nij njk nki nil nlj iSeg =
      if nij ≤ 0 then .ok (splitArcs B 0, nij, splitArcs T 0, nij)
      else if iSeg = T.ci ∧ iSeg = B.ci ∧ nij = iSeg + T.cj ∧ nij = iSeg + B.cj then
        .ok (splitArcs B iSeg, nij - iSeg, splitArcs T iSeg, iSeg)
      else .error .ub := by
  unfold edgeSplitData
  by_cases hp : 0 < nij
  · rw [if_pos hp, if_neg (by omega)]
    obtain ⟨nj, hnj⟩ : ∃ nj : ℕ, nij - iSeg = nj := ⟨(nij - iSeg).toNat, by omega⟩
    have t1 : toInt (toSize (nij - iSeg)) = nj := by
      rw [toSize_ok (by omega) (by omega), toInt_ok (by omega)]; omega
    have t2 : toInt (toSize iSeg) = iSeg := by
      rw [toSize_ok (by omega) (by omega), toInt_ok (by omega)]; omega
    simp only [t1, t2, bind, Except.bind]
    rw [splitCount_eq fB h1 h5 h4 hb (by omega), splitCount_eq fT h1 h2 h3 hb (by omega)]
    by_cases kB : iSeg = B.ci ∧ nj = B.cj
    · rw [if_pos kB]
      by_cases kT : iSeg = T.ci ∧ nj = T.cj
      · rw [if_pos kT, if_pos (by omega), hnj]
        rfl
      · rw [if_neg kT]
        simp only
        rw [if_neg (by omega)]
    · rw [if_neg kB]
      simp only
      rw [if_neg (by omega)]
  · have e1 := fT.ij; have e2 := fT.jk; have e3 := fT.ki
    have e4 := fB.ij; have e5 := fB.jk; have e6 := fB.ki
    have c1 := fits_one T
    have c2 := fits_one B
    have x1 : max nil (max nlj 0) = (splitArcs B 0 : ℤ) := by
      rw [splitArcs_eq]; clear * - e4 e5 e6 hp c2; omega
    have x2 : max njk (max nki 0) = (splitArcs T 0 : ℤ) := by
      rw [splitArcs_eq]; clear * - e1 e2 e3 hp c1; omega
    rw [if_neg hp, if_pos (by omega), x1, x2]

/-- **C59 fails**: one arc around corner `i` crosses the edge, which is split between the arc and `j`;
the crossings of the new edges are `0, 0, 0, 1`, but the code's behaviour is undefined. -/
theorem C59_fails : Consistent 1 0 1 ∧ edgeSplitData 1 0 1 1 0 0 = .error .ub :=
  ⟨by unfold Consistent; decide, by decide +kernel⟩

example : edgeSplitData 3 2 1 1 2 1 = .ok (0, 2, 0, 1) ∧ edgeSplitData (-1) 2 2 0 5 0 = .ok (5, -1, 2, -1) ∧
    Consistent 3 2 1 ∧ Consistent (-1) 2 2 ∧ Consistent (-1) 5 0 := by
  refine ⟨by decide +kernel, by decide +kernel, ?_, ?_, ?_⟩ <;> (unfold Consistent; decide)

end GC.NC
