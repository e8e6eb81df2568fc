import Verif.Props.Tangent

/-! # C67: tangent spaces at vertices and holonomy -/

namespace GC
open Classical Finset

namespace Mesh
variable {m : Mesh} {len : ℕ → ℝ} {nan : V2} {vs hs is es fs : List ℕ}

/-- The counterclockwise walk around a vertex. -/
structure Walk (m : Mesh) (v k : ℕ) (b : ℕ → ℕ) : Prop where
  pos : 0 < k
  le : k ≤ m.nHeFill
  first : b 0 = m.vHalfedge v
  last : b k = m.vHalfedge v
  live : ∀ j < k, m.heLive (b j) ∧ m.heVertex (b j) = v
  inj : ∀ i j, i < k → j < k → b i = b j → i = j
  surj : ∀ h, m.heLive h → m.heVertex h = v → ∃ j < k, b j = h
  step : ∀ j < k, ¬ m.ext (b j) → twin (m.heNext (m.heNext (b j))) = b (j + 1)
  int : ∀ j, j + 1 < k → ¬ m.ext (b j)

theorem walk (hv : m.Valid) (ht : m.TriFaces) {v : ℕ} (hl : m.vLive v) : ∃ k b, m.Walk v k b := by
  obtain ⟨l0, e0⟩ := hv.v_he v hl
  obtain ⟨k, hk, hhit, hmin, hok⟩ := orbitList_ok (hv.back_vNext l0) (fun z hz => (hv.live_of_orb_vNext l0 hz).1)
  obtain ⟨l, e, nd, hm', -⟩ := hv.outgoingHalfedges_ok hl
  have el : l = (List.range (k+1)).map (fun j => m.vNext^[j] (m.vHalfedge v)) := by
    unfold outgoingHalfedges at e; rw [hok] at e; injection e with e; exact e.symm
  set f := m.vHalfedge v
  have mem : ∀ i, (∃ j < k + 1, m.vNext^[j] f = i) ↔ m.heLive i ∧ m.heVertex i = v := by
    intro i
    rw [← hm', el, List.mem_map]
    simp only [List.mem_range]
  have liv : ∀ j, m.heLive (m.vNext^[j] f) ∧ m.heVertex (m.vNext^[j] f) = v := by
    intro j
    induction j with
    | zero => exact ⟨l0, e0⟩
    | succ j ih =>
      rw [Function.iterate_succ_apply']
      exact ⟨hv.vNext_live ih.1, (hv.vertex_vNext ih.1).trans ih.2⟩
  have oi := orbit_inj hhit hmin
  have binj : ∀ i j, i < k + 1 → j < k + 1 → m.vNext^[k + 1 - i] f = m.vNext^[k + 1 - j] f → i = j := by
    have norm : ∀ i, i < k + 1 → ∃ r, r ≤ k ∧ m.vNext^[k + 1 - i] f = m.vNext^[r] f ∧ ((i = 0 ∧ r = 0) ∨ (0 < i ∧ r = k + 1 - i)) := by
      intro i hi
      rcases Nat.eq_zero_or_pos i with rfl | p
      · exact ⟨0, by omega, by rw [Nat.sub_zero, hhit]; rfl, .inl ⟨rfl, rfl⟩⟩
      · exact ⟨k + 1 - i, by omega, rfl, .inr ⟨p, rfl⟩⟩
    intro i j hi hj q
    obtain ⟨r, r1, r2, r3⟩ := norm i hi
    obtain ⟨s, s1, s2, s3⟩ := norm j hj
    rw [r2, s2] at q
    have := oi r s r1 s1 q
    omega
  refine ⟨k + 1, fun j => m.vNext^[k + 1 - j] f, by omega, by omega, hhit, by simp [f], fun j _ => liv _, binj, fun h h1 h2 => ?_, fun j hj hx => ?_,
    fun j hj hx => ?_⟩
  · obtain ⟨i, hi, rfl⟩ := (mem h).2 ⟨h1, h2⟩
    rcases Nat.eq_zero_or_pos i with rfl | p
    · exact ⟨0, by omega, by rw [Nat.sub_zero, hhit]; rfl⟩
    · exact ⟨k + 1 - i, by omega, by show m.vNext^[k + 1 - (k + 1 - i)] f = _; congr 1; omega⟩
  · have e1 : k + 1 - j = (k + 1 - (j + 1)) + 1 := by omega
    change ¬ m.ext (m.vNext^[k + 1 - j] f) at hx
    show twin (m.heNext (m.heNext (m.vNext^[k + 1 - j] f))) = m.vNext^[k + 1 - (j + 1)] f
    rw [e1, Function.iterate_succ_apply'] at hx ⊢
    set y := m.vNext^[k + 1 - (j + 1)] f
    have ly := (liv (k + 1 - (j + 1))).1
    have lt := hv.twin_live y ly
    have xt : ¬ m.ext (twin y) := fun q => hx ((hv.ext_next lt).2 q)
    show twin (m.heNext (m.heNext (m.heNext (twin y)))) = y
    rw [ht _ lt xt, twin_twin]
  · obtain ⟨h1, h2⟩ := liv (k + 1 - j)
    have b1 := hv.bdy_first _ h1 hx
    rw [h2] at b1
    have lt := hv.twin_live f l0
    have x1 : m.ext (m.vNext f) := (hv.ext_next lt).2 b1
    have := hv.bdy_unique _ _ h1 (hv.vNext_live l0) hx x1 (h2.trans ((hv.vertex_vNext l0).trans e0).symm)
    have e2 : m.vNext f = m.vNext^[k + 1 - k] f := by rw [show k + 1 - k = 1 by omega]; rfl
    rw [e2] at this
    have := binj j k (by omega) (by omega) this
    omega

theorem cornerScaledAngles_ok (hv : m.Valid) (hm : m.Metric len) (R : m.Ranges vs hs is es fs) :
    ∃ sa, m.cornerScaledAngles len = .ok sa ∧ (∀ i ∈ m.ints, 0 < sa i) ∧
      ∀ v, m.vLive v → ∑ i ∈ m.ints with m.heVertex i = v, sa i = if m.OnBoundary v then Real.pi else 2 * Real.pi := by
  obtain ⟨ca, c1, c2⟩ := cornerAngles_ok (len := len) R
  obtain ⟨s, s1, s2⟩ := vertexAngleSums_ok (len := len) R
  set sa := assign (fun _ => 0) (fun c => if m.vIsBoundary (m.heVertex c) then Real.pi / s (m.heVertex c) * ca c
    else 2 * Real.pi / s (m.heVertex c) * ca c) is with hsa
  have sa1 : m.cornerScaledAngles len = .ok sa := by
    unfold cornerScaledAngles; rw [c1, s1, R.i]; rfl
  have sa2 : ∀ i ∈ m.ints, sa i = (if m.vIsBoundary (m.heVertex i) then Real.pi else 2 * Real.pi) / s (m.heVertex i) * m.cornerAngle len i := by
    intro i hi
    rw [hsa, assign_apply, if_pos ((R.mi i).2 hi), c2, if_pos hi]
    split <;> rfl
  have sp : ∀ v, m.vLive v → 0 < s v := fun v hl => by rw [s2]; exact angleSum_pos hv hm hl
  refine ⟨sa, sa1, fun i hi => ?_, fun v hl => ?_⟩
  · rw [sa2 i hi]
    have := sp _ (hv.vertex_live _ (mem_ints.1 hi).1)
    have := angle_pos hv hm hi
    have := Real.pi_pos
    split <;> positivity
  · simp only [← hv.vIsBoundary_iff hl]
    rw [sum_congr rfl (g := fun i => (if m.vIsBoundary v then Real.pi else 2 * Real.pi) / s v * m.cornerAngle len i)]
    · rw [← mul_sum, ← s2, div_mul_cancel₀ _ (sp v hl).ne']
    · intro i hi
      obtain ⟨a, b⟩ := mem_filter.1 hi
      rw [sa2 i a, b]

/-- The loop around one vertex. -/
theorem vertexVectors_ok {sa : ℕ → ℝ} {v k : ℕ} {b : ℕ → ℕ} (w : m.Walk v k b) :
    ∀ n j d, j < k → k - j ≤ n → ∃ d', m.vertexVectors len sa (m.vHalfedge v) n d (∑ l ∈ range j, sa (b l)) (b j) = .ok d' ∧
      (∀ l, j ≤ l → l < k → d' (b l) = (V2.fromAngle (∑ i ∈ range l, sa (b i))).smul (len (heEdge (b l)))) ∧
      ∀ h, (∀ l, j ≤ l → l < k → b l ≠ h) → d' h = d h := by
  intro n
  induction n with
  | zero => intro j d h1 h2; omega
  | succ n ih =>
    intro j d h1 h2
    have fin : j + 1 = k → ∀ d', d' = Function.update d (b j) ((V2.fromAngle (∑ l ∈ range j, sa (b l))).smul (len (heEdge (b j)))) →
        (∀ l, j ≤ l → l < k → d' (b l) = (V2.fromAngle (∑ i ∈ range l, sa (b i))).smul (len (heEdge (b l)))) ∧
        ∀ h, (∀ l, j ≤ l → l < k → b l ≠ h) → d' h = d h := by
      rintro e d' rfl
      refine ⟨fun l a c => ?_, fun h a => ?_⟩
      · rw [show l = j by omega, Function.update_self]
      · rw [Function.update_of_ne (fun q => a j le_rfl h1 q.symm)]
    unfold vertexVectors
    simp only
    by_cases hi : m.heIsInterior (b j)
    · rw [if_neg (not_not.2 hi), w.step j h1 (heInterior_iff.1 hi)]
      by_cases q : b (j + 1) = m.vHalfedge v
      · rw [if_neg (not_not.2 q)]
        have e : j + 1 = k := by
          by_contra z
          have := w.inj (j + 1) 0 (by omega) w.pos (q.trans w.first.symm)
          omega
        obtain ⟨f1, f2⟩ := fin e _ rfl
        exact ⟨_, rfl, f1, f2⟩
      · rw [if_pos q]
        have lt : j + 1 < k := by
          by_contra z
          have : j + 1 = k := by omega
          rw [this] at q
          exact q w.last
        obtain ⟨d', e1, e2, e3⟩ := ih (j + 1) (Function.update d (b j) ((V2.fromAngle (∑ l ∈ range j, sa (b l))).smul (len (heEdge (b j))))) lt (by omega)
        rw [sum_range_succ] at e1
        refine ⟨d', e1, fun l a c => ?_, fun h a => ?_⟩
        · rcases Nat.eq_or_lt_of_le a with rfl | a
          · rw [e3 _ (fun l' a' c' q' => by have := w.inj l' j c' h1 q'; omega), Function.update_self]
          · exact e2 l a c
        · rw [e3 h (fun l a' c => a l (by omega) c), Function.update_of_ne (fun q => a j le_rfl h1 q.symm)]
    · rw [if_pos hi]
      have e : j + 1 = k := by
        by_contra z
        exact w.int j (by omega) (not_not.1 (fun q => hi (heInterior_iff.2 q)))
      obtain ⟨f1, f2⟩ := fin e _ rfl
      exact ⟨_, rfl, f1, f2⟩

/-- The polar coordinates at the vertices. -/
theorem halfedgeVectorsInVertex_ok (hv : m.Valid) (ht : m.TriFaces) (hm : m.Metric len) (R : m.Ranges vs hs is es fs)
    {sa : ℕ → ℝ} (s1 : m.cornerScaledAngles len = .ok sa) (s2 : ∀ i ∈ m.ints, 0 < sa i)
    (s3 : ∀ v, m.vLive v → ∑ i ∈ m.ints with m.heVertex i = v, sa i = if m.OnBoundary v then Real.pi else 2 * Real.pi) :
    ∃ (vec : ℕ → V2) (th : ℕ → ℝ), m.halfedgeVectorsInVertex len = .ok vec ∧
      (∀ h, m.heLive h → vec h = (V2.fromAngle (th h)).smul (len (heEdge h)) ∧ 0 ≤ th h ∧ th h < 2 * Real.pi) ∧
      (∀ v, m.vLive v → th (m.vHalfedge v) = 0) ∧
      (∀ h ∈ m.ints, th (twin (m.heNext (m.heNext h))) = th h + sa h ∨
        (twin (m.heNext (m.heNext h)) = m.vHalfedge (m.heVertex h) ∧ th h + sa h = 2 * Real.pi)) := by
  choose! k b w using fun v (hl : m.vLive v) => walk hv ht hl
  have key : ∀ h, m.heLive h → ∃ j < k (m.heVertex h), b (m.heVertex h) j = h :=
    fun h hl => (w _ (hv.vertex_live h hl)).surj h hl rfl
  choose! J j1 j2 using key
  set th : ℕ → ℝ := fun h => ∑ l ∈ range (J h), sa (b (m.heVertex h) l) with hth
  have Jb : ∀ v, m.vLive v → ∀ j < k v, J (b v j) = j := by
    intro v hl j hj
    obtain ⟨a, c⟩ := (w v hl).live j hj
    have x1 := j1 _ a
    have x2 := j2 _ a
    rw [c] at x1 x2
    exact (w v hl).inj _ _ x1 hj x2
  have thb : ∀ v, m.vLive v → ∀ j < k v, th (b v j) = ∑ l ∈ range j, sa (b v l) := by
    intro v hl j hj
    rw [hth]
    simp only
    rw [Jb v hl j hj, ((w v hl).live j hj).2]
  -- partial sums
  have part : ∀ v, m.vLive v → ∀ j ≤ k v, (∀ l < j, ¬ m.ext (b v l)) →
      0 ≤ ∑ l ∈ range j, sa (b v l) ∧ ∑ l ∈ range j, sa (b v l) ≤ ∑ i ∈ m.ints with m.heVertex i = v, sa i := by
    intro v hl j hj hx
    have ii : ∀ l < j, b v l ∈ m.ints := fun l h => mem_ints.2 ⟨((w v hl).live l (by omega)).1, hx l h⟩
    refine ⟨sum_nonneg (fun l h => (s2 _ (ii l (mem_range.1 h))).le), ?_⟩
    rw [← sum_image (f := sa) (g := b v) (s := range j)]
    · refine sum_le_sum_of_subset_of_nonneg (fun x h => ?_) (fun x h _ => (s2 _ (mem_filter.1 h).1).le)
      obtain ⟨l, h1, rfl⟩ := mem_image.1 h
      exact mem_filter.2 ⟨ii l (mem_range.1 h1), ((w v hl).live l (by have := mem_range.1 h1; omega)).2⟩
    · intro x hx' y hy' e
      have := mem_range.1 hx'; have := mem_range.1 hy'
      exact (w v hl).inj x y (by omega) (by omega) e
  have pi := Real.pi_pos
  -- the loop over the vertices
  have loop : ∀ l : List ℕ, (∀ v ∈ l, m.vLive v) → ∀ d, ∃ d',
      l.foldlM (fun d v => m.vertexVectors len sa (m.vHalfedge v) (m.nHeFill + 1) d 0 (m.vHalfedge v)) d = .ok d' ∧
      ∀ h, m.heLive h → (m.heVertex h ∈ l → d' h = (V2.fromAngle (th h)).smul (len (heEdge h))) ∧ (m.heVertex h ∉ l → d' h = d h) := by
    intro l
    induction l with
    | nil => intro _ d; exact ⟨d, rfl, fun h _ => ⟨fun q => by simp at q, fun _ => rfl⟩⟩
    | cons v l ih =>
      intro hlv d
      have hl := hlv v List.mem_cons_self
      obtain ⟨d1, e1, e2, e3⟩ := vertexVectors_ok (len := len) (sa := sa) (w v hl) (m.nHeFill + 1) 0 d (w v hl).pos (by have := (w v hl).le; omega)
      rw [sum_range_zero, (w v hl).first] at e1
      obtain ⟨d', i1, i2⟩ := ih (fun x hx => hlv x (List.mem_cons_of_mem _ hx)) d1
      refine ⟨d', by simp only [List.foldlM_cons, bind, Except.bind, e1]; exact i1, fun h hh => ⟨fun q => ?_, fun q => ?_⟩⟩
      · by_cases z : m.heVertex h ∈ l
        · exact (i2 h hh).1 z
        · rw [(i2 h hh).2 z]
          have ev : m.heVertex h = v := by
            rcases List.mem_cons.1 q with q | q
            · exact q
            · exact absurd q z
          obtain ⟨j, a, rfl⟩ := (w v hl).surj h hh ev
          rw [e2 j (Nat.zero_le _) a, thb v hl j a]
      · rw [List.mem_cons, not_or] at q
        rw [(i2 h hh).2 q.2, e3 h]
        rintro j - a rfl
        exact q.1 ((w v hl).live j a).2
  obtain ⟨vec, e1, e2⟩ := loop vs (fun v h => mem_verts.1 ((R.mv v).1 h)) (fun _ => ⟨0, 0⟩)
  have tot : ∀ v, m.vLive v → (∀ l < k v, ¬ m.ext (b v l)) → ∑ l ∈ range (k v), sa (b v l) = 2 * Real.pi := by
    intro v hl hx
    have nb : ¬ m.OnBoundary v := by
      rintro ⟨i, a, c, e⟩
      obtain ⟨j, hj, rfl⟩ := (w v hl).surj i a e
      exact hx j hj c
    have := s3 v hl
    rw [if_neg nb] at this
    rw [← this]
    refine sum_bij (fun l _ => b v l) (fun l h => ?_) (fun x hx' y hy' e => ?_) (fun i hi => ?_) (fun _ _ => rfl)
    · have h := mem_range.1 h
      exact mem_filter.2 ⟨mem_ints.2 ⟨((w v hl).live l h).1, hx l h⟩, ((w v hl).live l h).2⟩
    · exact (w v hl).inj x y (mem_range.1 hx') (mem_range.1 hy') e
    · obtain ⟨a, c⟩ := mem_filter.1 hi
      obtain ⟨j, hj, e⟩ := (w v hl).surj i (mem_ints.1 a).1 c
      exact ⟨j, mem_range.2 hj, e⟩
  refine ⟨vec, th, ?_, fun h hh => ⟨(e2 h hh).1 ?_, ?_⟩, fun v hl => ?_, fun h hi => ?_⟩
  · simp only [halfedgeVectorsInVertex, bind, Except.bind, s1, R.v]; exact e1
  · exact (R.mv _).2 (mem_verts.2 (hv.vertex_live h hh))
  · have hl := hv.vertex_live h hh
    have a := j1 h hh
    have c := j2 h hh
    set v := m.heVertex h
    have hx : ∀ l < J h, ¬ m.ext (b v l) := fun l q => (w v hl).int l (by omega)
    obtain ⟨p1, p2⟩ := part v hl (J h) a.le hx
    refine ⟨p1, ?_⟩
    show ∑ l ∈ range (J h), sa (b v l) < _
    have tt := s3 v hl
    by_cases q : m.OnBoundary v
    · rw [if_pos q] at tt; linarith
    · rw [if_neg q] at tt
      have hi : ¬ m.ext h := fun z => q ⟨h, hh, z, rfl⟩
      obtain ⟨-, p4⟩ := part v hl (J h + 1) a (fun l q' => by
        rcases Nat.lt_succ_iff_lt_or_eq.1 q' with r | rfl
        · exact hx l r
        · rw [c]; exact hi)
      rw [sum_range_succ, c] at p4
      have := s2 h (mem_ints.2 ⟨hh, hi⟩)
      linarith
  · rw [← (w v hl).first, thb v hl 0 (w v hl).pos, sum_range_zero]
  · obtain ⟨hh, hx⟩ := mem_ints.1 hi
    have hl := hv.vertex_live h hh
    have a := j1 h hh
    have c := j2 h hh
    set v := m.heVertex h
    have st := (w v hl).step (J h) a (by rw [c]; exact hx)
    rw [c] at st
    rw [st]
    have e : th h + sa h = ∑ l ∈ range (J h + 1), sa (b v l) := by
      rw [sum_range_succ, c]
    by_cases q : J h + 1 < k v
    · left; rw [thb v hl _ q, e]
    · right
      have ek : J h + 1 = k v := by omega
      refine ⟨by rw [ek]; exact (w v hl).last, ?_⟩
      rw [e, ek]
      refine tot v hl (fun l q' => ?_)
      by_cases z : l = J h
      · rw [z, c]; exact hx
      · exact (w v hl).int l (by omega)

/-- **C67, vertices.** `halfedgeVectorsInVertex` gives the halfedges at a vertex polar coordinates: lengths are edge lengths, the first
halfedge has angle zero, and going counterclockwise across a face the angle grows by the scaled corner angle, back to the
first halfedge at 2π. `transportVectorsAlongHalfedge` is the rotation that identifies the two directions of the edge, and inverse for the twin. -/
theorem C67_vertices (m : Mesh) (len : ℕ → ℝ) (hv : m.Valid) (ht : m.TriFaces) (hm : m.Metric len) :
    ∃ (sa : ℕ → ℝ) (vec tr : ℕ → V2) (th : ℕ → ℝ), m.cornerScaledAngles len = .ok sa ∧ m.halfedgeVectorsInVertex len = .ok vec ∧ m.transportVectorsAlongHalfedge len = .ok tr ∧
      (∀ h, m.heLive h → vec h = ⟨len (h / 2) * Real.cos (th h), len (h / 2) * Real.sin (th h)⟩ ∧ 0 ≤ th h ∧ th h < 2 * Real.pi) ∧
      (∀ v, m.vLive v → th (m.vHalfedge v) = 0) ∧
      (∀ h, m.heLive h → ¬ m.ext h → th (twin (m.heNext (m.heNext h))) = th h + sa h ∨
        (twin (m.heNext (m.heNext h)) = m.vHalfedge (m.heVertex h) ∧ th h + sa h = 2 * Real.pi)) ∧
      (∀ h, m.heLive h → (tr h).mul (vec h) = (vec (twin h)).neg ∧ (tr h).norm = 1 ∧ (tr (twin h)).mul (tr h) = ⟨1, 0⟩) := by
  obtain ⟨vs, hs, is, es, fs, R⟩ := hv.ranges
  obtain ⟨sa, s1, s2, s3⟩ := cornerScaledAngles_ok hv hm R
  obtain ⟨vec, th, v1, v2, v3, v4⟩ := halfedgeVectorsInVertex_ok hv ht hm R s1 s2 s3
  set tr := es.foldl (transport vec) (fun _ => ⟨0, 0⟩) with htr
  have tr1 : m.transportVectorsAlongHalfedge len = .ok tr := by
    simp only [transportVectorsAlongHalfedge, bind, Except.bind, v1, R.e]; rfl
  have trv : ∀ h, m.heLive h → tr h = if h % 2 = 0 then ((vec (twin h)).neg.div (vec h)).normalize
      else ((vec h).neg.div (vec (twin h))).normalize.inv := by
    intro h hl
    have := transport_apply (vec := vec) (cond := fun _ => False) (l := es) (fun _ => ⟨0, 0⟩) h
    simp only [if_false, not_false_eq_true, and_true] at this
    rw [if_pos ((R.me _).2 ((mem_edges hv).2 (edge_live hv hl)))] at this
    exact this
  have nrm : ∀ h, m.heLive h → (vec h).norm = len (heEdge h) := by
    intro h hl
    rw [(v2 h hl).1]
    unfold V2.norm V2.smul V2.fromAngle
    simp only
    rw [show Real.cos (th h) * len (heEdge h) * (Real.cos (th h) * len (heEdge h)) + Real.sin (th h) * len (heEdge h) * (Real.sin (th h) * len (heEdge h)) =
      len (heEdge h) ^ 2 by linear_combination len (heEdge h) ^ 2 * Real.cos_sq_add_sin_sq (th h)]
    exact Real.sqrt_sq (len_pos hv hm hl).le
  refine ⟨sa, vec, tr, th, s1, v1, tr1, fun h hl => ⟨?_, (v2 h hl).2⟩, v3, fun h a b => v4 h (mem_ints.2 ⟨a, b⟩), fun h hl => ?_⟩
  · rw [(v2 h hl).1]
    unfold V2.smul V2.fromAngle heEdge
    ext
    · exact mul_comm _ _
    · exact mul_comm _ _
  · have lt := hv.twin_live h hl
    refine transport_spec ?_ ?_ ?_
    · rintro x (rfl | rfl)
      · exact trv _ hl
      · exact trv _ lt
    · rw [nrm h hl, nrm _ lt, heEdge_twin]
    · rw [nrm h hl]; exact len_pos hv hm hl

/-- **C67, holonomy.** Transport across the edges around an interior vertex, counterclockwise, rotates by its Gaussian curvature;
transport along the three edges of a face rotates by the curvature of the face. -/
theorem C67_holonomy (m : Mesh) (len : ℕ → ℝ) (nan : V2) (hv : m.Valid) (ht : m.TriFaces) (hm : m.Metric len) :
    ∃ across along Kv Kf, m.transportVectorsAcrossHalfedge len nan = .ok across ∧ m.transportVectorsAlongHalfedge len = .ok along ∧
      m.vertexGaussianCurvatures len = .ok Kv ∧ m.faceGaussianCurvatures len = .ok Kf ∧
      (∀ v, m.vLive v → ¬ m.OnBoundary v →
        ∏ h ∈ range m.nHeFill with m.heLive h ∧ m.heVertex h = v, (across (m.heNext (m.heNext h))).toC = Complex.exp (Kv v * Complex.I)) ∧
      (∀ h, m.heLive h → ¬ m.ext h → (along h).toC * (along (m.heNext h)).toC * (along (m.heNext (m.heNext h))).toC =
        Complex.exp (Kf (m.heFace h) * Complex.I)) := by
  obtain ⟨vs, hs, is, es, fs, R⟩ := hv.ranges
  obtain ⟨sa, s1, s2, s3⟩ := cornerScaledAngles_ok hv hm R
  obtain ⟨vecF, across, A, f1, f2, f3, f4, -, f5, -⟩ := C67_faces m len nan hv ht hm
  obtain ⟨sa', vecV, along, th, g1, g2, g3, g4, g0, g5, g6⟩ := C67_vertices m len hv ht hm
  rw [s1] at g1; injection g1 with g1; subst g1
  obtain ⟨sums, c1, c2⟩ := vertexAngleSums_ok (len := len) R
  obtain ⟨A', a1, a2⟩ := faceAreas_ok (len := len) R
  rw [f3] at a1; injection a1 with a1; subst a1
  set Kv := vs.foldl (fun d v => if ¬ m.vIsBoundary v then Function.update d v (2 * Real.pi - sums v) else d) (fun _ => 0) with hKv
  set Kf := assign (fun _ => 0) (fun f =>
    let angleDefect := -Real.pi
    let h := m.fHalfedge f
    angleDefect + sa h + sa (m.heNext h) + sa (m.heNext (m.heNext h))) fs with hKf
  refine ⟨across, along, Kv, Kf, f2, g3, ?_, ?_, fun v hl nb => ?_, fun h hl hx => ?_⟩
  · unfold vertexGaussianCurvatures; rw [c1, R.v]; rfl
  · unfold faceGaussianCurvatures; rw [s1, R.f]; rfl
  · -- the curvature at v
    have eK : Kv v = 2 * Real.pi - ∑ i ∈ m.ints with m.heVertex i = v, m.cornerAngle len i := by
      rw [hKv, foldl_local (S := fun u x => u = x ∧ ¬ m.vIsBoundary u) (val := fun x => 2 * Real.pi - sums x), if_pos, c2]
      · exact ⟨v, (R.mv v).2 (mem_verts.2 hl), rfl, fun q => nb ((hv.vIsBoundary_iff hl).1 q)⟩
      · rintro d u - x ⟨rfl, q⟩
        rw [if_pos q, Function.update_self]
      · intro d u _ x q
        split
        · rename_i z
          rw [Function.update_of_ne (fun e => q ⟨e.symm, z⟩)]
        · rfl
    have set_eq : ({h ∈ range m.nHeFill | m.heLive h ∧ m.heVertex h = v} : Finset ℕ) = {i ∈ m.ints | m.heVertex i = v} := by
      ext i; simp only [mem_filter, mem_ints, mem_range]
      constructor
      · rintro ⟨-, a, b⟩; exact ⟨⟨a, fun z => nb ⟨i, a, z, b⟩⟩, b⟩
      · rintro ⟨⟨a, -⟩, b⟩; exact ⟨a.1, a, b⟩
    rw [set_eq]
    set S : Finset ℕ := {i ∈ m.ints | m.heVertex i = v} with hS
    have allint : ∀ h, m.heLive h → m.heVertex h = v → h ∈ S := fun h a b => mem_filter.2 ⟨mem_ints.2 ⟨a, fun z => nb ⟨h, a, z, b⟩⟩, b⟩
    -- the next halfedge
    have ccw : ∀ h ∈ S, twin (m.heNext (m.heNext h)) ∈ S := by
      intro h hh
      obtain ⟨a, b⟩ := mem_filter.1 hh
      obtain ⟨l0, x0⟩ := mem_ints.1 a
      have l2 := hv.next_live _ (hv.next_live _ l0)
      refine allint _ (hv.twin_live _ l2) ?_
      rw [← hv.vertex_next l2, ht h l0 x0, b]
    have ccw_inj : ∀ h ∈ S, ∀ h' ∈ S, twin (m.heNext (m.heNext h)) = twin (m.heNext (m.heNext h')) → h = h' := by
      intro h hh h' hh' e
      have e2 : m.heNext (m.heNext h) = m.heNext (m.heNext h') := by
        have := congrArg twin e
        rwa [twin_twin, twin_twin] at this
      have l0 := (mem_ints.1 (mem_filter.1 hh).1).1
      have l0' := (mem_ints.1 (mem_filter.1 hh').1).1
      exact hv.next_inj l0 l0' (hv.next_inj (hv.next_live _ l0) (hv.next_live _ l0') e2)
    set u : ℕ → ℂ := fun h => (vecF h).toC / len (heEdge h) with hu
    have une : ∀ h ∈ S, u h ≠ 0 := by
      intro h hh
      obtain ⟨l0, x0⟩ := mem_ints.1 (mem_filter.1 hh).1
      have p := len_pos hv hm l0
      refine div_ne_zero ?_ (by exact_mod_cast p.ne')
      rw [← norm_pos_iff, V2.norm_toC, (f4 h l0 x0).1]; exact p
    have step : ∀ h ∈ S, (across (m.heNext (m.heNext h))).toC * (Complex.exp (m.cornerAngle len h * Complex.I) * u h) = u (twin (m.heNext (m.heNext h))) := by
      intro h hh
      obtain ⟨ih, ev⟩ := mem_filter.1 hh
      obtain ⟨l0, x0⟩ := mem_ints.1 ih
      have i2 := int_next hv (int_next hv ih)
      obtain ⟨l2, x2⟩ := mem_ints.1 i2
      obtain ⟨l1, x1⟩ := mem_ints.1 (int_next hv ih)
      have xt := (mem_ints.1 (mem_filter.1 (ccw h hh)).1).2
      obtain ⟨n0, cl, cr, -⟩ := f4 h l0 x0
      have n1 := (f4 _ l1 x1).1
      have n2 := (f4 _ l2 x2).1
      have ok := hm h l0 x0
      have ar : m.faceArea len (m.heFace h) = _ := faceArea_he (len := len) hv ht ih
      rw [a2, if_pos (int_face hv ih), ar] at cr
      unfold heEdge at ok cr
      rw [← n0, ← n1, ← n2] at ok cr
      have cr := corner_rot cl ok cr
      rw [n0, n1, n2] at cr
      have ec : cang (len (h / 2)) (len (m.heNext h / 2)) (len (m.heNext (m.heNext h) / 2)) = m.cornerAngle len h := rfl
      rw [ec] at cr
      have tr := congrArg V2.toC (f5 _ l2 x2 xt).1
      rw [(C42_vector2_complex _ _ 0).2.2.1, (C42_vector2_complex _ ⟨0, 0⟩ 0).2.2.2.2.1] at tr
      have p0 : (len (h / 2) : ℂ) ≠ 0 := by exact_mod_cast (len_pos hv hm l0).ne'
      have p2 : (len (m.heNext (m.heNext h) / 2) : ℂ) ≠ 0 := by exact_mod_cast (len_pos hv hm l2).ne'
      simp only [hu]
      rw [heEdge_twin]
      unfold heEdge
      rw [eq_div_iff p2]
      have : Complex.exp (m.cornerAngle len h * Complex.I) * ((vecF h).toC / len (h / 2)) * len (m.heNext (m.heNext h) / 2) =
          -(vecF (m.heNext (m.heNext h))).toC := by
        field_simp
        linear_combination (-1 : ℂ) * cr
      rw [mul_assoc, this]
      linear_combination (-1 : ℂ) * tr
    have prod := prod_congr (s₁ := S) rfl step
    rw [prod_mul_distrib, prod_mul_distrib, prod_bij (t := S) (g := u) (fun h _ => twin (m.heNext (m.heNext h))) ccw
      (fun h hh h' hh' e => ccw_inj h hh h' hh' e) (fun h hh => by
        have := surjOn_of_injOn_of_card_le (fun h => twin (m.heNext (m.heNext h))) ccw (fun h hh h' hh' e => ccw_inj h hh h' hh' e) le_rfl
        obtain ⟨x, a, b⟩ := this hh
        exact ⟨x, a, b⟩) (fun _ _ => rfl), ← Complex.exp_sum] at prod
    have un : ∏ h ∈ S, u h ≠ 0 := prod_ne_zero_iff.2 une
    have e1 : (∏ h ∈ S, (across (m.heNext (m.heNext h))).toC) * Complex.exp (∑ h ∈ S, m.cornerAngle len h * Complex.I) = 1 := by
      apply mul_right_cancel₀ un
      linear_combination prod
    rw [eK]
    have e2 : Complex.exp (((2 * Real.pi - ∑ i ∈ S, m.cornerAngle len i : ℝ) : ℂ) * Complex.I) *
        Complex.exp (∑ h ∈ S, m.cornerAngle len h * Complex.I) = 1 := by
      rw [← Complex.exp_add, ← sum_mul, ← add_mul]
      push_cast
      rw [sub_add_cancel, Complex.exp_two_pi_mul_I]
    exact mul_right_cancel₀ (Complex.exp_ne_zero _) (e1.trans e2.symm)
  · -- the face
    have ih := mem_ints.2 ⟨hl, hx⟩
    have i1 := int_next hv ih
    have i2 := int_next hv i1
    have eK : Kf (m.heFace h) = -Real.pi + (sa h + sa (m.heNext h) + sa (m.heNext (m.heNext h))) := by
      have hf := int_face hv ih
      rw [hKf, assign_apply, if_pos ((R.mf _).2 hf)]
      simp only
      obtain ⟨l0, e0⟩ := hv.f_he _ (mem_faces.1 hf).1
      have x0 : ¬ m.ext (m.fHalfedge (m.heFace h)) := face_not_ext hv (by rw [e0]; exact (mem_faces.1 hf).2)
      have t := ht _ l0 x0
      rcases hv.tri_mem l0 hl t e0.symm with q | q | q
      · rw [← q]; ring
      · have e3 : m.heNext (m.heNext h) = m.fHalfedge (m.heFace h) := by
          conv_lhs => rw [q]
          exact t
        rw [e3, ← q]; ring
      · have e3 : m.heNext h = m.fHalfedge (m.heFace h) := by
          conv_lhs => rw [q]
          exact t
        rw [e3, ← q]; ring
    set E : ℕ → ℂ := fun h => Complex.exp (th h * Complex.I) with hE
    have vc : ∀ i, m.heLive i → (vecV i).toC = len (i / 2) * E i := by
      intro i li
      rw [(g4 i li).1, hE]
      simp only
      rw [Complex.exp_mul_I, ← Complex.ofReal_cos, ← Complex.ofReal_sin]
      apply Complex.ext <;> simp [-Complex.ofReal_cos, -Complex.ofReal_sin, V2.toC]
    have turn : ∀ i, i ∈ m.ints → (along i).toC * E i = -(E (m.heNext i) * Complex.exp (sa (m.heNext i) * Complex.I)) := by
      intro i hi
      obtain ⟨li, xi⟩ := mem_ints.1 hi
      have n1 := int_next hv hi
      have tt := ht i li xi
      have tr := congrArg V2.toC (g6 i li).1
      rw [(C42_vector2_complex _ _ 0).2.2.1, (C42_vector2_complex _ ⟨0, 0⟩ 0).2.2.2.2.1, vc i li, vc _ (hv.twin_live i li),
        show len (twin i / 2) = len (i / 2) from congrArg len (heEdge_twin i)] at tr
      have p0 : (len (i / 2) : ℂ) ≠ 0 := by exact_mod_cast (len_pos hv hm li).ne'
      have e1 : (along i).toC * E i = -E (twin i) := by
        apply mul_left_cancel₀ p0; linear_combination tr
      rw [e1]
      congr 1
      have := g5 _ (mem_ints.1 n1).1 (mem_ints.1 n1).2
      rw [tt] at this
      simp only [hE]
      rw [← Complex.exp_add, ← add_mul]
      rcases this with q | ⟨q1, q2⟩
      · rw [q]; push_cast; rfl
      · have z : th (twin i) = 0 := by
          rw [q1]
          exact g0 _ (hv.vertex_live _ (mem_ints.1 n1).1)
        rw [z, ← Complex.ofReal_add, q2]
        push_cast
        rw [zero_mul, Complex.exp_zero, Complex.exp_two_pi_mul_I]
    have t0 := turn h ih
    have t1 := turn _ i1
    have t2 := turn _ i2
    rw [ht h hl hx] at t2
    have ne : E h * E (m.heNext h) * E (m.heNext (m.heNext h)) ≠ 0 :=
      mul_ne_zero (mul_ne_zero (Complex.exp_ne_zero _) (Complex.exp_ne_zero _)) (Complex.exp_ne_zero _)
    rw [eK]
    have ex : Complex.exp (((-Real.pi + (sa h + sa (m.heNext h) + sa (m.heNext (m.heNext h))) : ℝ) : ℂ) * Complex.I) =
        -(Complex.exp (sa h * Complex.I) * Complex.exp (sa (m.heNext h) * Complex.I) * Complex.exp (sa (m.heNext (m.heNext h)) * Complex.I)) := by
      push_cast
      rw [add_mul, Complex.exp_add, neg_mul, Complex.exp_neg, Complex.exp_pi_mul_I, add_mul, add_mul, Complex.exp_add, Complex.exp_add]
      norm_num
    rw [ex]
    apply mul_right_cancel₀ ne
    calc _ = ((along h).toC * E h) * ((along (m.heNext h)).toC * E (m.heNext h)) * ((along (m.heNext (m.heNext h))).toC * E (m.heNext (m.heNext h))) := by ring
      _ = _ := by rw [t0, t1, t2]; ring

end Mesh
end GC
